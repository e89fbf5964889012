import Verif.PotentialInt
import Verif.PotentialLemmas
import Verif.AnyNumbers

/-!
# Lemmas on the integer arithmetic of potentials
-/

namespace Nip

open Res Spec Potential

theorem mulInt_ok {M a b : Nat} (h : a * b ≤ M) : mulInt M a b = ok (a * b) := if_pos h

theorem addInt_ok {M a b : Nat} (h : a + b ≤ M) : addInt M a b = ok (a + b) := if_pos h

theorem take_prod_le {card : List Nat} (hpos : Positive card) (i : Nat) : (card.take i).prod ≤ card.prod := by
  refine Nat.le_of_dvd (prod_pos hpos) ⟨(card.drop i).prod, ?_⟩
  rw [← List.prod_append, List.take_append_drop]

theorem inRange_take {card idx : List Nat} (h : InRange card idx) (n : Nat) : InRange (card.take n) (idx.take n) :=
  List.forall₂_take n h

theorem position_take (card idx : List Nat) (n : Nat) : position (card.take n) (idx.take n) = position (card.take n) idx := by
  induction card generalizing idx n with
  | nil => simp [position]
  | cons c cs ih =>
    cases n with
    | zero => simp [position]
    | succ n =>
      cases idx with
      | nil => simp [position]
      | cons i is => simp [position, ih]

theorem pointerInt_eq {M : Nat} (hM : 1 ≤ M) {card idx : List Nat} (hpos : Positive card) (hi : InRange card idx) (hf : card.prod ≤ M) :
    pointerInt M card idx = ok (position card idx) := by
  have hlen := inRange_length hi
  obtain ⟨s', h1, h2, h3⟩ := loop_inv (n := card.length)
    (f := fun i (st : Nat × Nat) => do
      let x ← rd idx i
      let y ← mulInt M x st.2
      let index ← addInt M st.1 y
      let c ← rd card i
      let cardTemp ← mulInt M st.2 c
      ok (index, cardTemp)) (s := (0, 1))
    (fun n st => st.1 = position (card.take n) idx ∧ st.2 = (card.take n).prod)
    (by simp [position])
    (by
      rintro n hn ⟨a, b⟩ ⟨rfl, rfl⟩
      have hn' : n < idx.length := by omega
      have hx : idx[n] < card[n] := List.Forall₂.get hi hn' hn
      have e := List.take_succ_eq_append_getElem hn
      have hp : (card.take (n + 1)).prod = (card.take n).prod * card[n] := take_prod_succ hn
      have hle := take_prod_le hpos (n + 1)
      have hpo : position (card.take (n + 1)) idx = position (card.take n) idx + idx[n] * (card.take n).prod := by
        rw [e, position_append _ _ _ (by simp; omega)]
        have : idx.drop (card.take n).length = idx[n] :: idx.drop (n + 1) := by
          simp only [List.length_take, Nat.min_eq_left hn.le]
          exact List.drop_eq_getElem_cons hn'
        rw [this]
        simp [position, Nat.mul_comm]
      have hlt : position (card.take (n + 1)) idx < (card.take (n + 1)).prod := by
        rw [← position_take]; exact position_lt (inRange_take hi _)
      refine ⟨(position (card.take (n + 1)) idx, (card.take (n + 1)).prod), ?_, rfl, rfl⟩
      simp only [rd_lt hn, rd_lt hn', ok_bind]
      rw [mulInt_ok (by omega), ok_bind, addInt_ok (by omega), ok_bind, mulInt_ok (by omega), ok_bind, hpo, hp])
  unfold pointerInt
  rw [h1, ok_bind, h2]
  simp

theorem inverseMappingInt_eq {M : Nat} (card : List Nat) (size : Nat) {flat : Nat} (hf : flat ≤ M) (indices : List Nat) :
    inverseMappingInt M card size flat indices = inverseMapping card size flat indices := by
  have key : ∀ n (st : Nat × Nat × List Nat), st.2.1 ≤ M →
      loopDown n (fun i (st : Nat × Nat × List Nat) => do
        let c ← rd card i
        let x ← divC st.1 c
        let q ← divC st.2.1 x
        let ind ← wr st.2.2 i q
        let y ← mulInt M q x
        ok (x, st.2.1 - y, ind)) st =
      loopDown n (fun i (st : Nat × Nat × List Nat) => do
        let c ← rd card i
        let x ← divC st.1 c
        let q ← divC st.2.1 x
        let ind ← wr st.2.2 i q
        ok (x, st.2.1 - q * x, ind)) st := by
    intro n
    induction n with
    | zero => intro st _; rfl
    | succ n ih =>
      intro st hst
      rw [loopDown_succ, loopDown_succ]
      cases hc : rd card n with
      | ub => rfl
      | ok c =>
        simp only [ok_bind]
        cases hx : divC st.1 c with
        | ub => rfl
        | ok x =>
          simp only [ok_bind]
          unfold divC
          split
          · rfl
          · have hle : st.2.1 / x * x ≤ st.2.1 := Nat.div_mul_le_self _ _
            simp only [ok_bind]
            cases wr st.2.2 n (st.2.1 / x) with
            | ub => rfl
            | ok ind =>
              simp only [ok_bind, mulInt_ok (hle.trans hst), ok_bind']
              exact ih _ ((Nat.sub_le _ _).trans hst)
  unfold inverseMappingInt inverseMapping
  rw [key _ _ hf]

theorem partialIndexInt_eq {M : Nat} (card : List Nat) (size : Nat) {flat : Nat} (hf : flat ≤ M) (var : Nat) :
    partialIndexInt M card size flat var = partialIndex card size flat var := by
  have key : ∀ n (st : Nat × Nat × Nat), st.2.1 ≤ M →
      loopDown n (fun j (st : Nat × Nat × Nat) => do
        let c ← rd card (var + j)
        let x ← divC st.1 c
        let q ← divC st.2.1 x
        let y ← mulInt M q x
        ok (x, st.2.1 - y, q)) st =
      loopDown n (fun j (st : Nat × Nat × Nat) => do
        let c ← rd card (var + j)
        let x ← divC st.1 c
        let q ← divC st.2.1 x
        ok (x, st.2.1 - q * x, q)) st := by
    intro n
    induction n with
    | zero => intro st _; rfl
    | succ n ih =>
      intro st hst
      rw [loopDown_succ, loopDown_succ]
      cases hc : rd card (var + n) with
      | ub => rfl
      | ok c =>
        simp only [ok_bind]
        cases hx : divC st.1 c with
        | ub => rfl
        | ok x =>
          simp only [ok_bind]
          unfold divC
          split
          · rfl
          · have hle : st.2.1 / x * x ≤ st.2.1 := Nat.div_mul_le_self _ _
            simp only [ok_bind, mulInt_ok (hle.trans hst), ok_bind']
            exact ih _ ((Nat.sub_le _ _).trans hst)
  unfold partialIndexInt partialIndex
  rw [key _ _ hf]

theorem sizeOfInt_eq {M : Nat} {card : List Nat} {d : Nat} (hd : d ≤ card.length) (hf : ∀ k ≤ d, (card.take k).prod ≤ M) :
    sizeOfInt M card d = ok (card.take d).prod := by
  induction d with
  | zero => simp [sizeOfInt]
  | succ d ih =>
    have := ih (by omega) (fun k hk => hf k (by omega))
    unfold sizeOfInt at this ⊢
    have h2 := hf (d + 1) le_rfl
    rw [take_prod_succ (by omega)] at h2
    rw [loop_succ, this, ok_bind', rd_lt (by omega), ok_bind, mulInt_ok h2, take_prod_succ (by omega)]

theorem sizeOfInt_ub {M : Nat} {card : List Nat} {d : Nat} (hM : 1 ≤ M) (hd : d ≤ card.length) (h : ∃ k ≤ d, M < (card.take k).prod) :
    sizeOfInt M card d = ub := by
  induction d with
  | zero =>
    obtain ⟨k, hk, h⟩ := h
    have : k = 0 := by omega
    subst this; simp at h; omega
  | succ d ih =>
    by_cases h' : ∃ k ≤ d, M < (card.take k).prod
    · have := ih (by omega) h'
      unfold sizeOfInt at this ⊢
      rw [loop_succ, this]; rfl
    · push Not at h'
      have e := sizeOfInt_eq (M := M) (by omega) h'
      obtain ⟨k, hk, h⟩ := h
      have hkd : k = d + 1 := by
        by_contra hne
        have := h' k (by omega)
        omega
      subst hkd
      unfold sizeOfInt at e ⊢
      rw [loop_succ, e, ok_bind', rd_lt (by omega), ok_bind]
      rw [take_prod_succ (by omega)] at h
      unfold mulInt
      rw [if_neg (by omega)]

section
variable {K : Type} [Zero K] [One K] [Add K] [Sub K] [Mul K] [Div K] [LinearOrder K]

theorem indicesOfInt_eq {M : Nat} (p : Potential K) {i : Nat} (hi : i ≤ M) : p.indicesOfInt M i = p.indicesOf i :=
  inverseMappingInt_eq _ _ hi _

/-- The pointer into a second table, for the indices chosen from those of a cell of the first. -/
theorem pointerInt_choose {M : Nat} (hM : 1 ≤ M) {p q : Potential K} (hp : p.Wf) (hq : q.Wf) (hf : q.size ≤ M) {mapping : List Nat}
    (hm : Into p.card mapping q.card) {i : Nat} (hi : i < p.size) {idx sidx : List Nat} (h1 : p.indicesOf i = ok idx)
    (h2 : choose idx mapping q.dim = ok sidx) : pointerInt M q.card sidx = pointer q.card sidx := by
  rw [indicesOf_eq hp hi] at h1
  cases h1
  rw [choose_pointer hm] at h2
  cases h2
  rw [pointerInt_eq hM hq.2 (project_inRange hm (digits_inRange hp.2 i)) (by rw [← hq.size]; exact hf),
    pointer_eq (by rw [project_length, into_length hm])]

theorem generalMarginaliseInt_eq {M : Nat} (hM : 1 ≤ M) {p q : Potential K} (hp : p.Wf) (hq : q.Wf) (hpf : p.size ≤ M) (hqf : q.size ≤ M)
    {mapping : List Nat} (hm : Into p.card mapping q.card) :
    generalMarginaliseInt M p q mapping = generalMarginalise p q mapping := by
  unfold generalMarginaliseInt generalMarginalise
  split
  · rfl
  · split
    · rfl
    · congr 1
      refine loop_congr (fun i hi s => ?_)
      rw [indicesOfInt_eq p (by omega)]
      cases h1 : p.indicesOf i with
      | ub => rfl
      | ok idx =>
        simp only [ok_bind]
        cases h2 : choose idx mapping q.dim with
        | ub => rfl
        | ok sidx =>
          simp only [ok_bind]
          rw [pointerInt_choose hM hp hq hqf hm hi h1 h2]

theorem totalMarginaliseInt_eq {M : Nat} {p : Potential K} (hpf : p.size ≤ M) (dest : List K) (var : Int) :
    totalMarginaliseInt M p dest var = totalMarginalise p dest var := by
  unfold totalMarginaliseInt totalMarginalise
  split
  · rfl
  · simp only
    congr 1; funext c
    congr 1; funext d0
    congr 1
    refine loop_congr (fun i hi s => ?_)
    rw [partialIndexInt_eq _ _ (by omega)]

theorem cpdLoopInt_eq {M n m : Nat} (hf : m * n ≤ M) (fuel : Nat) : ∀ b (d : List K), b ≤ m →
    cpdLoopInt M n (m * n) fuel (b * n) d = cpdLoop n (m * n) fuel (b * n) d := by
  induction fuel with
  | zero => intro b d _; rfl
  | succ fuel ih =>
    intro b d hb
    unfold cpdLoopInt cpdLoop
    split
    · rename_i hlt
      have hbm : b < m := by
        by_contra hcon
        have : m * n ≤ b * n := Nat.mul_le_mul_right n (by omega)
        omega
      have hend : b * n + n = (b + 1) * n := by ring
      have hle : (b + 1) * n ≤ m * n := Nat.mul_le_mul_right n hbm
      cases normaliseArray d (b * n) n with
      | ub => rfl
      | ok d' =>
        rw [ok_bind, ok_bind', addInt_ok (by omega), ok_bind, hend]
        exact ih (b + 1) d' hbm
    · rfl

theorem normaliseCpdInt_eq {M : Nat} {p : Potential K} (hp : p.Wf) (hpf : p.size ≤ M) : normaliseCpdInt M p = normaliseCpd p := by
  unfold normaliseCpdInt normaliseCpd
  cases hc : p.card with
  | nil =>
    have := cpdLoopInt_eq (n := 1) (m := p.size) (M := M) (by omega) p.size 0 p.data (by omega)
    simp only [Nat.mul_one, Nat.zero_mul] at this
    simp only [this]
  | cons n cs =>
    have hs : p.size = cs.prod * n := by rw [hp.size, hc, List.prod_cons, Nat.mul_comm]
    have := cpdLoopInt_eq (n := n) (m := cs.prod) (M := M) (by omega) p.size 0 p.data (by omega)
    simp only [Nat.zero_mul] at this
    rw [← hs] at this
    simp only [this]

theorem updateInt_eq {M : Nat} (hM : 1 ≤ M) {p : Potential K} (hp : p.Wf) (hpf : p.size ≤ M) {num den : Option (Potential K)} {mapping : List Nat}
    (hn : ∀ n, num = some n → n.Wf ∧ n.size ≤ M ∧ Into p.card mapping n.card)
    (hd : ∀ d, den = some d → d.Wf ∧ d.size ≤ M ∧ Into p.card mapping d.card) :
    updateInt M num den p mapping = update num den p mapping := by
  unfold updateInt update
  extract_lets bad nvars bad' nvars'
  show (if bad then _ else if nvars = 0 then _ else _) = (if bad then _ else if nvars = 0 then _ else _)
  split
  · rfl
  · split
    · rfl
    · congr 1
      refine loop_congr (fun i hi t => ?_)
      rw [indicesOfInt_eq p (by omega)]
      cases h1 : p.indicesOf i with
      | ub => rfl
      | ok idx =>
        simp only [ok_bind]
        cases h2 : choose idx mapping nvars with
        | ub => rfl
        | ok sidx =>
          have hq : ∀ q : Potential K, q.Wf ∧ q.size ≤ M ∧ Into p.card mapping q.card → nvars = q.dim → pointerInt M q.card sidx = pointer q.card sidx := by
            intro q ⟨a, b, c⟩ e
            exact pointerInt_choose hM hp a b c hi h1 (e ▸ h2)
          simp only [ok_bind]
          cases num with
          | none =>
            cases den with
            | none => rfl
            | some d => simp only [hq d (hd d rfl) rfl]
          | some n =>
            cases den with
            | none => simp only [hq n (hn n rfl) rfl]
            | some d =>
              have e : nvars = d.dim := by
                show n.dim = d.dim
                exact (into_length (hn n rfl).2.2).symm.trans (into_length (hd d rfl).2.2)
              simp only [hq n (hn n rfl) rfl, hq d (hd d rfl) e]

theorem updateEvidenceInt_eq {M : Nat} {p : Potential K} (hpf : p.size ≤ M) (num : List K) (den : Option (List K)) (var : Nat) :
    updateEvidenceInt M num den p var = updateEvidence num den p var := by
  unfold updateEvidenceInt updateEvidence
  congr 1
  refine loop_congr (fun i hi s => ?_)
  rw [indicesOfInt_eq p (by omega)]
  cases den <;> rfl

theorem initInt_eq {M : Nat} (hM : 1 ≤ M) {p q : Potential K} (hp : p.Wf) (hq : q.Wf) (hpf : p.size ≤ M) (hqf : q.size ≤ M) {mapping : Option (List Nat)}
    (hm : ∀ l, mapping = some l → Into p.card l q.card) : initInt M q p mapping = init q p mapping := by
  unfold initInt init
  cases mapping with
  | none => rfl
  | some l =>
    simp only
    split
    · rfl
    · congr 1
      refine loop_congr (fun i hi s => ?_)
      rw [indicesOfInt_eq p (by omega)]
      cases h1 : p.indicesOf i with
      | ub => rfl
      | ok idx =>
        simp only [ok_bind]
        cases h2 : choose idx l q.dim with
        | ub => rfl
        | ok sidx =>
          simp only [ok_bind]
          rw [pointerInt_choose hM hp hq hqf (hm l rfl) hi h1 h2]

theorem newInt_eq {M : Nat} {card : List Nat} {d : Nat} (hd : d ≤ card.length) (hf : ∀ k ≤ d, (card.take k).prod ≤ M) (data : Option (List K)) :
    newInt M card (d : Int) data = new card (d : Int) data := by
  unfold newInt new
  rw [if_neg (by omega), if_neg (by omega)]
  simp only [Int.toNat_natCast]
  rw [sizeOfInt_eq hd hf, sizeOf_eq _ hd]
  cases data <;> rfl

theorem newInt_ub {M : Nat} (hM : 1 ≤ M) {card : List Nat} {d : Nat} (hd : d ≤ card.length) (h : ∃ k ≤ d, M < (card.take k).prod) (data : Option (List K)) :
    newInt M card (d : Int) data = ub := by
  unfold newInt
  rw [if_neg (by omega)]
  simp only [Int.toNat_natCast]
  rw [sizeOfInt_ub hM hd h, ub_bind]

theorem normaliseDimensionInt_eq {M : Nat} (hM : 1 ≤ M) {p : Potential K} (hp : p.Wf) (hpf : p.size ≤ M) (dimension : Int) :
    normaliseDimensionInt M p dimension = normaliseDimension p dimension := by
  unfold normaliseDimensionInt normaliseDimension
  split
  · rfl
  · rename_i hb
    push Not at hb
    have hk : dimension.toNat < p.card.length := by
      have := hb.2
      unfold dim at this
      omega
    simp only [rd_lt hk, ok_bind]
    have hc : 0 < p.card[dimension.toNat] := hp.2 _ (List.getElem_mem hk)
    have hcM : p.card[dimension.toNat] ≤ M := by
      refine le_trans (Nat.le_of_dvd (prod_pos hp.2) (List.dvd_prod (List.getElem_mem hk))) ?_
      rw [← hp.size]; exact hpf
    have e1 : newInt (K := K) M [p.card[dimension.toNat]] 1 none = new [p.card[dimension.toNat]] 1 none := by
      refine newInt_eq (d := 1) (by simp) (fun k hk => ?_) none
      rcases k with _ | k
      · simpa using hM
      · simpa using hcM
    have e2 : new (K := K) [p.card[dimension.toNat]] 1 none = ok (some ⟨[p.card[dimension.toNat]], List.replicate p.card[dimension.toNat] 1⟩) := by
      have := new_none (K := K) (card := [p.card[dimension.toNat]])
      simpa using this
    rw [e1, e2, ok_bind]
    simp only
    have hw : (⟨[p.card[dimension.toNat]], List.replicate p.card[dimension.toNat] 1⟩ : Potential K).Wf :=
      ⟨by simp, fun c h => by simp at h; omega⟩
    have hi : Into p.card [dimension.toNat] [p.card[dimension.toNat]] := by
      refine ⟨by simpa using hk, ?_⟩
      rw [List.map_cons, List.map_nil, List.getD_eq_getElem _ _ hk]
    rw [generalMarginaliseInt_eq hM hp hw hpf (by simpa [size] using hcM) hi]
    obtain ⟨r, hr, hr1, hr2, _⟩ := general_any (P := fun _ : K => True) ⟨trivial, trivial, fun _ _ _ _ => trivial, fun _ _ _ _ => trivial, fun _ _ _ _ _ => trivial⟩
      hp hw hi (by simp; omega) (fun _ _ => trivial)
    rw [hr, ok_bind]
    simp only at hr2 ⊢
    rw [updateInt_eq hM hp hpf (by simp) (by
      intro d hd
      cases hd
      exact ⟨hr1, by rw [hr1.size, hr2]; simpa using hcM, hr2 ▸ hi⟩)]
    rw [ok_bind]
    simp only
    rw [hr, ok_bind]
end
end Nip
