import Verif.Dynamic

/-! # Forward inference does not look ahead -/

namespace Nip

open Res

set_option linter.unusedSectionVars false

variable {K : Type} [Field K] [LinearOrder K]

/-- results are only appended -/
theorem forwardStep_results {lg : Option (Logs K)} {s : Interface} {marked : Nat → Bool} {ts : TimeSeries} {vars : List Nat} {t : Nat} {st st' : Filter K}
    (h : forwardStep lg s marked ts vars t st = ok st') : ∃ row, st'.results = st.results ++ [row] := by
  unfold forwardStep at h
  cases h1 : arriveForward s t st.model st.alpha with
  | ub => rw [h1] at h; cases h
  | ok m1 =>
    rw [h1, ok_bind] at h
    cases h2 : absorb lg marked ts t (m1, st.ll) with
    | ub => rw [h2] at h; cases h
    | ok r2 =>
      rw [h2, ok_bind] at h
      simp only at h
      cases h3 : posteriors vars r2.1 with
      | ub => rw [h3] at h; cases h
      | ok r3 =>
        rw [h3, ok_bind] at h
        cases h4 : startPass s true r3.2 st.alpha with
        | ub => rw [h4] at h; cases h
        | ok a =>
          rw [h4, ok_bind] at h
          cases h5 : r3.2.reset with
          | ub => rw [h5] at h; cases h
          | ok m5 =>
            rw [h5, ok_bind] at h
            cases h6 : m5.usePriors true with
            | ub => rw [h6] at h; cases h
            | ok m6 =>
              rw [h6, ok_bind] at h
              simp only [ok.injEq] at h
              exact ⟨r3.1, by rw [← h]⟩

theorem loop_split {σ : Type} {f : Nat → σ → Res σ} {s st : σ} {n k : Nat} (hk : k ≤ n) (h : loop n f s = ok st) :
    ∃ sk, loop k f s = ok sk ∧ ∀ P : Nat → σ → Prop, P k sk → (∀ i a b, k ≤ i → i < n → P i a → f i a = ok b → P (i + 1) b) → P n st := by
  induction n, hk using Nat.le_induction generalizing st with
  | base => exact ⟨st, h, fun P h0 _ => h0⟩
  | succ n hle ih =>
    rw [loop_succ] at h
    cases h1 : loop n f s with
    | ub => rw [h1] at h; cases h
    | ok s1 =>
      rw [h1] at h
      obtain ⟨sk, a1, a2⟩ := ih h1
      refine ⟨sk, a1, fun P h0 hs => ?_⟩
      exact hs n s1 st hle (Nat.lt_succ_self n) (a2 P h0 (fun i a b h1 h2 => hs i a b h1 (Nat.lt_succ_of_lt h2))) h

theorem loop_results {lg : Option (Logs K)} {s : Interface} {marked : Nat → Bool} {ts : TimeSeries} {vars : List Nat} {st0 st : Filter K} {n k : Nat} (hk : k ≤ n)
    (h0 : st0.results = []) (h : loop n (forwardStep lg s marked ts vars) st0 = ok st) :
    ∃ sk, loop k (forwardStep lg s marked ts vars) st0 = ok sk ∧ st.results.take k = sk.results ∧ st.results.length = n := by
  obtain ⟨s0, b1, b2⟩ := loop_split (Nat.zero_le k) (show loop k _ _ = ok _ from (loop_split hk h).choose_spec.1)
  obtain ⟨sk, a1, a2⟩ := loop_split hk h
  have hlen : ∀ k sk, k ≤ n → loop k (forwardStep lg s marked ts vars) st0 = ok sk → sk.results.length = k := by
    intro k
    induction k with
    | zero => intro sk _ h; cases h; rw [h0]; rfl
    | succ k ih =>
      intro sk hk h
      rw [loop_succ] at h
      cases h1 : loop k (forwardStep lg s marked ts vars) st0 with
      | ub => rw [h1] at h; cases h
      | ok s1 =>
        rw [h1] at h
        obtain ⟨row, hr⟩ := forwardStep_results (show forwardStep lg s marked ts vars k s1 = ok sk from h)
        rw [hr, List.length_append, ih s1 (by omega) h1]; rfl
  refine ⟨sk, a1, ?_, hlen n st (le_refl _) h⟩
  have hl := hlen k sk hk a1
  have := a2 (fun _ st => ∃ l, st.results = sk.results ++ l) ⟨[], by simp⟩ (by
    rintro i a b _ _ ⟨l, hl⟩ hs
    obtain ⟨row, hr⟩ := forwardStep_results hs
    exact ⟨l ++ [row], by rw [hr, hl, List.append_assoc]⟩)
  obtain ⟨l, hl'⟩ := this
  rw [hl', ← hl, List.take_left]

theorem insertStep_eq {marked : Nat → Bool} {ts ts' : TimeSeries} {t : Nat} (hv : ts.numVars = ts'.numVars) (hh : ts.numHidden = ts'.numHidden)
    (ho : ts.observed = ts'.observed) (hl : t < ts.length) (hl' : t < ts'.length) (hd : ts.data[t]? = ts'.data[t]?) (m : Model K) :
    insertStep marked ts (t : Int) m = insertStep marked ts' (t : Int) m := by
  have hrd : rd ts.data (t : Int).toNat = rd ts'.data (t : Int).toNat := by
    unfold rd
    simp only [Int.toNat_natCast, hd]
  unfold insertStep
  rw [if_neg (by omega), if_neg (by omega), hv, hh, ho, hrd]

theorem forwardStep_eq {lg : Option (Logs K)} {s : Interface} {marked : Nat → Bool} {ts ts' : TimeSeries} {vars : List Nat} {t : Nat}
    (hv : ts.numVars = ts'.numVars) (hh : ts.numHidden = ts'.numHidden) (ho : ts.observed = ts'.observed) (hl : t < ts.length) (hl' : t < ts'.length)
    (hd : ts.data[t]? = ts'.data[t]?) (st : Filter K) : forwardStep lg s marked ts vars t st = forwardStep lg s marked ts' vars t st := by
  have hi : ∀ m : Model K, insertStep marked ts (t : Int) m = insertStep marked ts' (t : Int) m := insertStep_eq hv hh ho hl hl' hd
  have ha : ∀ p : Model K × K, absorb lg marked ts t p = absorb lg marked ts' t p := by
    intro p
    unfold absorb
    cases lg with
    | none => simp only [hi]
    | some g => simp only [hi]
  unfold forwardStep
  simp only [ha]

end Nip
