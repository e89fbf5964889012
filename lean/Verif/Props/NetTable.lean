import Verif.NetTableLemmas

/-! # C46 and C47: conditional tables of network files -/

namespace Nip.Props

open Res Spec Potential

variable {K : Type} [Field K] [LinearOrder K]

/-! ## C46 -/

/-- C46, `nip_create_potential`: `F` are the variables in the order of the caller, the first one varying fastest in the given array, and
`s` the same variables in increasing order of identity.  The potential has the dimensions `s` and the given numbers. -/
theorem C46_any_order (card : Nat → Nat) (F s : List Nat) (hs : Sorts s F) (hcard : ∀ v ∈ F, 0 < card v) (data : List K)
    (hdata : (F.map card).prod ≤ data.length) :
    ∃ p, createPotential card F (some data) = ok (some p) ∧ p.Wf ∧ p.card = s.map card ∧
      ∀ x, Combination card F x → ∃ h : position (F.map card) (F.map x) < data.length,
        p.at' (s.map x) = data[position (F.map card) (F.map x)] := by
  refine ⟨_, createPotential_eq hs hcard (some data) (by intro d hd; rw [← Option.some.inj hd]; exact hdata),
    givenTable_wf hs hcard data, rfl, ?_⟩
  intro x hx
  have hlt := Nat.lt_of_lt_of_le (position_lt (inRange_map hx)) hdata
  refine ⟨hlt, ?_⟩
  simp only
  rw [givenTable_at' hs card x data hx, List.getD_eq_getElem _ _ hlt]

/-- C46, without an array: every number is one. -/
theorem C46_no_data (card : Nat → Nat) (F s : List Nat) (hs : Sorts s F) (hcard : ∀ v ∈ F, 0 < card v) :
    ∃ p : Potential K, createPotential card F none = ok (some p) ∧ p.Wf ∧ p.card = s.map card ∧
      ∀ x, Combination card F x → p.at' (s.map x) = 1 := by
  refine ⟨_, createPotential_eq hs hcard none (by intro d hd; cases hd), replicate_wf (positive_map hs hcard) 1, rfl, ?_⟩
  intro x hx
  exact replicate_at' (inRange_map (fun v hv => hx v (hs.perm.mem_iff.1 hv))) 1

/-- C46, the text: the family as `src/huginnet.y` hands it over makes the number written for a combination of states the number of the
potential for that combination. -/
theorem C46_written (card : Nat → Nat) (child : Nat) (symbols s : List Nat) (hs : Sorts s (child :: symbols))
    (hcard : ∀ v ∈ child :: symbols, 0 < card v) (data : List K) (hdata : ((child :: symbols).map card).prod ≤ data.length) :
    ∃ p, createPotential card (child :: parentList symbols) (some data) = ok (some p) ∧ p.Wf ∧ p.card = s.map card ∧
      ∀ x, Combination card (child :: symbols) x → rowMajor card x (symbols ++ [child]) < data.length ∧
        p.at' (s.map x) = written card child symbols data x := by
  have hF := sorts_family hs
  rw [parentList_eq]
  obtain ⟨p, h1, h2, h3, h4⟩ := C46_any_order card (child :: symbols.reverse) s hF (by
    intro u hu; exact hcard u (by simpa using hu)) data (by rw [prod_family]; exact hdata)
  refine ⟨p, h1, h2, h3, fun x hx => ?_⟩
  obtain ⟨hlt, hv⟩ := h4 x (by intro u hu; exact hx u (by simpa using hu))
  have hr : rowMajor card x (symbols ++ [child]) = position ((child :: symbols.reverse).map card) ((child :: symbols.reverse).map x) := by
    rw [rowMajor_eq]; simp
  rw [hr]
  refine ⟨hlt, ?_⟩
  rw [hv, written, hr, List.getD_eq_getElem _ _ hlt]

/-- C46, not enough numbers: the text is refused. -/
theorem C46_too_few (card : Nat → Nat) (child : Nat) (symbols : Option (List Nat)) (data : List K)
    (hdata : data.length < ((child :: symbols.getD []).map card).prod) :
    potentialDeclaration card child symbols (some data) = ok none := by
  unfold potentialDeclaration
  cases symbols with
  | none =>
    simp only [Option.getD_none, List.map_cons, List.map_nil, List.prod_singleton] at hdata
    simp only
    rw [if_pos hdata]
  | some l =>
    simp only
    split
    · rfl
    · rw [if_pos]
      simp only [parentList_eq, size_eq, Option.any_some, decide_eq_true_eq]
      rw [prod_family]
      exact hdata

/-- C46, the whole file: declarations that make sense give a valid network (of which the theorems about inference speak), with the tables
in the order of the file, and the children and parents named. -/
theorem C46_file [IsStrictOrderedRing K] (vars : List Nat) (card : Nat → Nat) (next : Nat → Option Nat) (ds : List (Declaration K))
    (hsorted : vars.Pairwise (· < ·)) (hids : ∀ v ∈ vars, 0 < v) (hstates : ∀ v ∈ vars, 0 < card v) (hsome : ds ≠ [])
    (hdecl : ∀ d ∈ ds, Declared card d.child d.symbols d.data ∧ ∀ v ∈ d.child :: d.symbols.getD [], v ∈ vars)
    (hdistinct : (ds.map (fun d => d.child)).Nodup) :
    ∃ l, parseTables card ds = ok (some l) ∧ ({ vars := vars, card := card, next := next, pots := l } : NetFile K).Valid ∧
      List.Forall₂ (fun d q => q.child = d.child ∧ q.parents.Perm (d.symbols.getD [])) ds l := by
  have hsort : ∀ d ∈ ds, ∀ l : List Nat, l.Perm (d.symbols.getD []) →
      Sorts (vars.filter (fun v => decide (v = d.child ∨ v ∈ l))) (d.child :: d.symbols.getD []) := by
    intro d hd l hl
    obtain ⟨hD, hv⟩ := hdecl d hd
    refine ⟨hsorted.filter _, ?_⟩
    have hnd : (d.child :: d.symbols.getD []).Nodup := by
      cases hs : d.symbols with
      | none => simp
      | some m =>
        have := hD.parents m hs
        simp only [Option.getD_some, List.nodup_cons]
        exact ⟨this.2.2, this.2.1⟩
    rw [List.perm_ext_iff_of_nodup ((hsorted.filter _).imp (fun h => Nat.ne_of_lt h)) hnd]
    intro v
    simp only [List.mem_filter, decide_eq_true_eq, List.mem_cons, hl.mem_iff]
    constructor
    · exact fun h => h.2
    · exact fun h => ⟨hv v (List.mem_cons.2 h), h⟩
  obtain ⟨l, hl, hF⟩ := parseTables_spec (card := card)
    (R := fun d q => d ∈ ds ∧ q.child = d.child ∧ q.parents.Perm (d.symbols.getD []) ∧ q.table.Wf ∧
      q.table.card = (vars.filter (fun v => decide (v = q.child ∨ v ∈ q.parents))).map card ∧ ∀ a ∈ q.table.data, 0 ≤ a) ds
    (by
      intro d hd
      obtain ⟨p, h1, h2, h3, h4⟩ := declaration_spec (hdecl d hd).1 (hsort d hd _ (List.reverse_perm _))
      exact ⟨_, h1, hd, rfl, List.reverse_perm _, h2, h3, h4⟩)
  have hmem : ∀ q ∈ l, ∃ d ∈ ds, q.child = d.child ∧ q.parents.Perm (d.symbols.getD []) ∧ q.table.Wf ∧
      q.table.card = (vars.filter (fun v => decide (v = q.child ∨ v ∈ q.parents))).map card ∧ ∀ a ∈ q.table.data, 0 ≤ a := by
    intro q hq
    obtain ⟨i, hi, rfl⟩ := List.getElem_of_mem hq
    have := (List.forall₂_iff_get.1 hF).2 i (by rw [hF.length_eq]; exact hi) hi
    exact ⟨_, this.1, this.2⟩
  have hchild : l.map (fun q => q.child) = ds.map (fun d => d.child) := by
    apply List.ext_getElem
    · simp [hF.length_eq]
    · intro i h1 h2
      simp only [List.getElem_map]
      exact ((List.forall₂_iff_get.1 hF).2 i (by simpa using h2) (by simpa using h1)).2.1
  refine ⟨l, hl, ⟨⟨hsorted, hids, hstates, ?_, ?_, ?_, ?_, ?_⟩, ?_⟩, hF.imp (fun _ _ h => ⟨h.2.1, h.2.2.1⟩)⟩
  · intro h0
    simp only at h0
    rw [h0] at hF
    exact hsome (List.forall₂_nil_right_iff.1 hF)
  · intro q hq
    obtain ⟨d, hd, h1, _⟩ := hmem q hq
    simp only
    rw [h1]
    exact (hdecl d hd).2 _ (by simp)
  · intro q hq
    obtain ⟨d, hd, h1, h2, _⟩ := hmem q hq
    have hnd := sorts_nodup (hsort d hd _ h2)
    rw [List.nodup_cons] at hnd
    refine ⟨h2.nodup_iff.2 hnd.2, fun u hu => ?_⟩
    have hu' := h2.mem_iff.1 hu
    refine ⟨(hdecl d hd).2 u (by simp [hu']), ?_⟩
    rw [h1]
    rintro rfl
    exact hnd.1 hu'
  · simp only
    rw [hchild]
    exact hdistinct
  · intro q hq
    obtain ⟨d, hd, h1, h2, h3, h4, h5⟩ := hmem q hq
    exact ⟨h4, h3.1⟩
  · intro q hq
    obtain ⟨d, hd, h1, h2, h3, h4, h5⟩ := hmem q hq
    exact h5

/-- variables 6, 9 and 3 with 2, 3 and 2 states: `potential (6 | 9 3)` -/
def demoCard : Nat → Nat := fun v => if v = 9 then 3 else 2

def demoData : List ℚ := [1, 2, 3, 4, 5, 6, 7, 8, 9, 10, 11, 12]

example : Sorts [3, 6, 9] (6 :: [9, 3]) := ⟨by decide, by decide⟩

/-- states 2 of 9, 0 of 3 and 1 of 6: number 10, found at the tuple of states of 3, 6 and 9 -/
example :
    (createPotential demoCard (6 :: parentList [9, 3]) (some demoData) >>= fun p => ok (p.map (fun p => (p.card, p.at' [0, 1, 2])))) =
      ok (some ([2, 2, 3], 10)) ∧
    written demoCard 6 [9, 3] demoData (fun v => if v = 9 then 2 else if v = 6 then 1 else 0) = 10 := by decide +kernel

example : ∃ l, parseTables (K := ℚ) demoCard [⟨9, none, some [1, 1, 2]⟩, ⟨6, some [9, 3], some demoData⟩, ⟨3, none, none⟩] = ok (some l) ∧
    ({ vars := [3, 6, 9], card := demoCard, next := fun _ => none, pots := l } : NetFile ℚ).Valid := by
  obtain ⟨l, h1, h2, _⟩ := C46_file (K := ℚ) [3, 6, 9] demoCard (fun _ => none)
    [⟨9, none, some [1, 1, 2]⟩, ⟨6, some [9, 3], some demoData⟩, ⟨3, none, none⟩] (by decide) (by decide) (by decide) (by simp)
    (by
      intro d hd
      simp only [List.mem_cons, List.not_mem_nil, or_false] at hd
      rcases hd with rfl | rfl | rfl
      · exact ⟨⟨by simp, by decide, by intro d hd; cases hd; decide +kernel⟩, by decide⟩
      · exact ⟨⟨by intro l hl; cases hl; decide, by decide, by intro d hd; cases hd; decide +kernel⟩, by decide⟩
      · exact ⟨⟨by simp, by decide, by simp⟩, by decide⟩)
    (by decide)
  exact ⟨l, h1, h2⟩

/-! ## C47 -/

/-- The numbers written make a conditional distribution of the child. -/
def ProperTable (card : Nat → Nat) (child : Nat) (symbols : List Nat) (data : List K) : Prop :=
  ∀ x, Combination card (child :: symbols) x →
    (∑ i ∈ Finset.range (card child), written card child symbols data (withState x child i)) = 1

/-- C47, what is stored: the numbers divided by their sum over the variable `v` of the family with the smallest identity, which may be a
parent. -/
theorem C47_stored (card : Nat → Nat) (child v : Nat) (symbols s : List Nat) (hs : Sorts (v :: s) (child :: symbols)) (hsym : symbols ≠ [])
    (hcard : ∀ u ∈ child :: symbols, 0 < card u) (data : List K) (hdata : ((child :: symbols).map card).prod ≤ data.length) :
    ∃ q, potentialDeclaration card child (some symbols) (some data) = ok (some q) ∧ q.child = child ∧ q.parents = symbols.reverse ∧
      q.table.Wf ∧ q.table.card = (v :: s).map card ∧
      ∀ x, Combination card (child :: symbols) x →
        ((∑ i ∈ Finset.range (card v), written card child symbols data (withState x v i)) = 0 →
          q.table.at' ((v :: s).map x) = written card child symbols data x) ∧
        ((∑ i ∈ Finset.range (card v), written card child symbols data (withState x v i)) ≠ 0 →
          q.table.at' ((v :: s).map x) =
            written card child symbols data x / ∑ i ∈ Finset.range (card v), written card child symbols data (withState x v i)) := by
  obtain ⟨p, h1, h2, h3, h4⟩ := declaration_data hs hcard hsym hdata
  refine ⟨_, h1, rfl, rfl, h2, h3, fun x hx => ⟨fun h0 => ?_, fun h0 => ?_⟩⟩
  · rw [h4 x hx, if_pos h0]
  · rw [h4 x hx, if_neg h0]

/-- C47 where it holds: the child was declared before its parents.  (Missing: families in which a parent was declared before the child, for
which the claim is false, see `C47_refuted`.) -/
theorem C47_unchanged_partial (card : Nat → Nat) (child : Nat) (symbols s : List Nat) (hs : Sorts s (child :: symbols))
    (hsym : symbols ≠ []) (hfirst : ∀ u ∈ symbols, child < u) (hcard : ∀ u ∈ child :: symbols, 0 < card u) (data : List K)
    (hdata : ((child :: symbols).map card).prod ≤ data.length) (hproper : ProperTable card child symbols data) :
    ∃ q, potentialDeclaration card child (some symbols) (some data) = ok (some q) ∧ q.child = child ∧ q.parents = symbols.reverse ∧
      q.table.Wf ∧ q.table.card = s.map card ∧
      ∀ x, Combination card (child :: symbols) x → q.table.at' (s.map x) = written card child symbols data x := by
  obtain ⟨v, t, rfl⟩ : ∃ v t, s = v :: t := by
    cases s with
    | nil => exact absurd hs.perm.length_eq (by simp)
    | cons v t => exact ⟨v, t, rfl⟩
  have hv : v = child := by
    have h1 : v ∈ child :: symbols := hs.perm.mem_iff.1 (by simp)
    have h2 : child ∈ v :: t := hs.perm.mem_iff.2 (by simp)
    rcases List.mem_cons.1 h1 with h1 | h1
    · exact h1
    · rcases List.mem_cons.1 h2 with h2 | h2
      · exact h2.symm
      · have h3 := hfirst v h1
        have h4 := (List.pairwise_cons.1 hs.sorted).1 child h2
        omega
  subst hv
  obtain ⟨q, h1, h2, h3, h4, h5, h6⟩ := C47_stored card v v symbols t hs hsym hcard data hdata
  refine ⟨q, h1, h2, h3, h4, h5, fun x hx => ?_⟩
  have hp := hproper x hx
  rw [(h6 x hx).2 (by rw [hp]; exact one_ne_zero), hp, div_one]

/-- C47, a child without parents: numbers that sum to one are not changed. -/
theorem C47_no_parents (card : Nat → Nat) (child : Nat) (hcard : 0 < card child) (data : List K) (hdata : data.length = card child)
    (hsum : data.sum = 1) :
    potentialDeclaration card child none (some data) = ok (some { child := child, parents := [], table := ⟨[card child], data⟩ }) := by
  have hs : Sorts [child] [child] := ⟨by simp, List.Perm.refl _⟩
  have hc := createPotential_eq (K := K) hs (card := card) (by simpa using hcard) (some data) (by
    intro d hd; rw [← Option.some.inj hd]; simp [hdata])
  have ht : givenTable card [child] [child] data = (⟨[card child], data⟩ : Potential K) := by
    unfold givenTable ofFn
    congr 1
    apply List.ext_getElem
    · simp [hdata]
    · intro i h1 h2
      have hi : i < card child := by omega
      simp [digits, rank, position, Nat.mod_eq_of_lt hi, h2]
  unfold potentialDeclaration
  simp only
  rw [if_neg (by omega), hc]
  simp only [ok_bind, ht]
  unfold normalise Potential.size
  simp only
  rw [normaliseArray_full, hsum, if_neg one_ne_zero]
  simp [ok_bind]

/-- variable 1 was declared before its child 2; 4 states each (as `P0` and `P1` in `test/input7.net`) -/
def timeData : List ℚ := [9/10, 1/10, 0, 0,  0, 9/10, 1/10, 0,  0, 0, 9/10, 1/10,  0, 0, 0, 1]

/-- C47 is false if a parent was declared before the child: the numbers make a conditional distribution of the child, but the probability of
child state 0 given parent state 0, written as 9/10, is stored as 1. -/
theorem C47_refuted : ∃ (card : Nat → Nat) (child : Nat) (symbols : List Nat) (data : List ℚ) (q : Parsed ℚ) (x : Nat → Nat),
    Sorts [1, 2] (child :: symbols) ∧ (∀ u ∈ child :: symbols, 0 < card u) ∧ data.length = ((child :: symbols).map card).prod ∧
    ProperTable card child symbols data ∧ potentialDeclaration card child (some symbols) (some data) = ok (some q) ∧
    Combination card (child :: symbols) x ∧ written card child symbols data x = 9/10 ∧ q.table.at' ([1, 2].map x) = 1 := by
  have hs : Sorts [1, 2] (2 :: [1]) := ⟨by decide, by decide⟩
  obtain ⟨q, h1, _, _, _, _, h6⟩ := C47_stored (fun _ => 4) 2 1 [1] [2] hs (by simp) (by simp) timeData (by decide)
  refine ⟨fun _ => 4, 2, [1], timeData, q, fun _ => 0, hs, by simp, by decide, ?_, h1, by intro u _; exact Nat.zero_lt_succ 3, by decide +kernel, ?_⟩
  · intro x hx
    have hx1 : x 1 < 4 := hx 1 (by simp)
    have h : ∀ i, written (fun _ => 4) 2 [1] timeData (withState x 2 i) = timeData.getD (x 1 * 4 + i) 0 := by
      intro i
      simp [written, rowMajor, withState]
    simp only [h]
    have : ∀ n < 4, (∑ i ∈ Finset.range 4, timeData.getD (n * 4 + i) 0) = 1 := by decide +kernel
    exact this _ hx1
  · have hx : Combination (fun _ => 4) (2 :: [1]) (fun _ => 0) := by intro u _; exact Nat.zero_lt_succ 3
    have hsum : (∑ i ∈ Finset.range 4, written (fun _ => 4) 2 [1] timeData (withState (fun _ => 0) 1 i)) = 9/10 := by decide +kernel
    rw [(h6 _ hx).2 (by rw [hsum]; decide +kernel), hsum]
    decide +kernel

/-- C47, no numbers given: also the default table is uniform over the wrong variable.  With a parent of 2 states declared before its child
of 3 states the numbers are 1/2 and sum to 3/2. -/
theorem C47_default_refuted : ∃ (card : Nat → Nat) (q : Parsed ℚ),
    potentialDeclaration (K := ℚ) card 2 (some [1]) none = ok (some q) ∧ card 2 = 3 ∧
    ∀ i < card 2, ∀ j < card 1, q.table.at' [j, i] = 1/2 := by
  refine ⟨fun v => v + 1, { child := 2, parents := [1], table := ⟨[2, 3], [1/2, 1/2, 1/2, 1/2, 1/2, 1/2]⟩ }, ?_, rfl, ?_⟩
  · have h : createPotential (K := ℚ) (fun v => v + 1) [2, 1] none = ok (some ⟨[2, 3], [1, 1, 1, 1, 1, 1]⟩) := by decide +kernel
    have h2 : normaliseCpd (K := ℚ) ⟨[2, 3], [1, 1, 1, 1, 1, 1]⟩ = ok ⟨[2, 3], [1/2, 1/2, 1/2, 1/2, 1/2, 1/2]⟩ := by decide +kernel
    simp only [potentialDeclaration, parentList, List.foldl_cons, List.foldl_nil, Option.any_none, List.cons_ne_nil, if_false,
      Bool.false_eq_true, h, ok_bind, h2]
  · decide +kernel

/-- the hypotheses of `C47_unchanged_partial`: child 1, parents 2 and 3 -/
example : ProperTable (K := ℚ) (fun _ => 2) 1 [2, 3] [1/2, 1/2, 1/4, 3/4, 0, 1, 1, 0] ∧ Sorts [1, 2, 3] (1 :: [2, 3]) := by
  refine ⟨?_, by decide, by decide⟩
  intro x hx
  have h2 : x 2 < 2 := hx 2 (by simp)
  have h3 : x 3 < 2 := hx 3 (by simp)
  have h : ∀ i, written (K := ℚ) (fun _ => 2) 1 [2, 3] [1/2, 1/2, 1/4, 3/4, 0, 1, 1, 0] (withState x 1 i) =
      ([1/2, 1/2, 1/4, 3/4, 0, 1, 1, 0] : List ℚ).getD ((x 2 * 2 + x 3) * 2 + i) 0 := by
    intro i
    simp [written, rowMajor, withState]
  simp only [h]
  have : ∀ n < 2, ∀ m < 2, (∑ i ∈ Finset.range 2, ([1/2, 1/2, 1/4, 3/4, 0, 1, 1, 0] : List ℚ).getD ((n * 2 + m) * 2 + i) 0) = 1 := by
    decide +kernel
  exact this _ h2 _ h3

end Nip.Props
