import Verif.NetTableLemmas
import Verif.Spec.HuginNet

/-! # The tables made from the potentials of a network file -/

namespace Nip

open Res Spec Potential

variable {K : Type} [Field K] [LinearOrder K]

theorem withState_self (x : Nat → Nat) (v : Nat) : withState x v (x v) = x := by
  funext u
  unfold withState
  split
  · next hu => rw [hu]
  · rfl

/-- the values of the table, for every rule -/
theorem declaration_value {card : Nat → Nat} {child : Nat} {symbols : Option (List Nat)} {data : Option (List K)}
    (hd : Declared card child symbols data) {v : Nat} {s : List Nat} (h : Sorts (v :: s) (child :: symbols.getD [])) {p : Potential K}
    (hp : potentialDeclaration card child symbols data = ok (some { child := child, parents := (symbols.getD []).reverse, table := p }))
    (x : Nat → Nat) (hx : Combination card (child :: symbols.getD []) x) :
    p.at' ((v :: s).map x) = tableValue card v child symbols data x := by
  unfold tableValue
  cases symbols with
  | some l =>
    simp only [Option.getD_some] at h hx hp ⊢
    have hl := (hd.parents l rfl).1
    cases data with
    | some d =>
      obtain ⟨q, hq, _, _, hv⟩ := declaration_data h hd.states hl (hd.numbers d rfl).1
      rw [hp] at hq
      have : p = q := by
        have := Res.ok.inj hq
        have := Option.some.inj this
        exact congrArg Parsed.table this
      rw [this, hv x hx]
      rfl
    | none =>
      have hF := sorts_family h
      have hpos' : ∀ u ∈ child :: l.reverse, 0 < card u := by
        intro u hu; exact hd.states u (by simpa using hu)
      have hc := createPotential_eq (K := K) hF hpos' none (by intro d hd; cases hd)
      have hwf := replicate_wf (K := K) (positive_map hF hpos') 1
      obtain ⟨q, hq, hqw, hqc, hqv⟩ := normaliseCpd_at' hwf (n := card v) (cs := s.map card) rfl
      have hq' : potentialDeclaration (K := K) card child (some l) none = ok (some { child := child, parents := l.reverse, table := q }) := by
        unfold potentialDeclaration
        simp only [hl, if_false, parentList_eq, Option.any_none, Bool.false_eq_true]
        rw [hc]
        simp only [ok_bind]
        rw [hq]
        simp only [ok_bind]
      rw [hp] at hq'
      have : p = q := by
        have := Res.ok.inj hq'
        have := Option.some.inj this
        exact congrArg Parsed.table this
      rw [this]
      have hv : v ∈ child :: l := h.perm.mem_iff.1 (by simp)
      have hin := inRange_map (card := card) (x := x) (s := s) (fun u hu => hx u (h.perm.mem_iff.1 (by simp [hu])))
      have hone : ∀ i, i < card v → (⟨(v :: s).map card, List.replicate ((v :: s).map card).prod 1⟩ : Potential K).at' (i :: s.map x) = 1 := by
        intro i hi
        exact replicate_at' (List.Forall₂.cons hi hin) 1
      rw [List.map_cons, hqv (x v) (s.map x) (hx v hv) hin]
      simp only [reduceCtorEq, if_false]
      unfold scaled
      rw [hone _ (hx v hv), Finset.sum_congr rfl (fun i hi => hone i (by simpa using hi))]
  | none =>
    simp only [Option.getD_none, List.reverse_nil] at h hx hp ⊢
    have hs : v = child ∧ s = [] := by
      have := List.perm_singleton.1 h.perm
      simpa using this
    obtain ⟨rfl, rfl⟩ := hs
    have hstates : ∀ u ∈ [v], 0 < card u := hd.states
    have hxv := hx v (by simp)
    cases data with
    | none =>
      have hc := createPotential_eq (K := K) h hstates none (by intro d hd; cases hd)
      have hq : potentialDeclaration (K := K) card v none none = ok (some { child := v, parents := [], table := ⟨[card v], List.replicate [card v].prod 1⟩ }) := by
        unfold potentialDeclaration
        simp only
        rw [hc]
        rfl
      rw [hp] at hq
      have : p = ⟨[card v], List.replicate [card v].prod 1⟩ := by
        have := Option.some.inj (Res.ok.inj hq)
        exact congrArg Parsed.table this
      rw [this]
      simp only [if_true]
      exact replicate_at' (List.Forall₂.cons hxv List.Forall₂.nil) 1
    | some d =>
      have hnum := hd.numbers d rfl
      simp only [Option.getD_none, List.map_cons, List.map_nil, List.prod_singleton] at hnum
      have hc := createPotential_eq (K := K) h hstates (some d) (by
        intro d' hd'
        rw [← Option.some.inj hd']; simpa using hnum.1)
      obtain ⟨G, hG⟩ : ∃ G, G = givenTable card [v] [v] d := ⟨_, rfl⟩
      have hwf := givenTable_wf h hstates d
      simp only at hc
      rw [← hG] at hwf hc
      have hcard : G.card = [card v] := by rw [hG]; rfl
      have hq : potentialDeclaration (K := K) card v none (some d) =
          ok (some { child := v, parents := [], table := ⟨G.card, if G.data.sum = 0 then G.data else G.data.map (· / G.data.sum)⟩ }) := by
        unfold potentialDeclaration
        simp only
        rw [if_neg (by omega), hc]
        simp only [ok_bind]
        unfold normalise Potential.size
        rw [Props.normaliseArray_full]
        simp only [ok_bind]
      rw [hp] at hq
      have hpp : p = ⟨G.card, if G.data.sum = 0 then G.data else G.data.map (· / G.data.sum)⟩ := by
        have := Option.some.inj (Res.ok.inj hq)
        exact congrArg Parsed.table this
      have hlen : G.data.length = card v := by rw [hwf.1, hcard]; simp
      have hval : ∀ i, i < card v → G.data.getD i 0 = written card v [] d (withState x v i) := by
        intro i hi
        have := written_eq h card (withState x v i) d (combination_withState hx hi)
        rw [← this, show givenTable card [v] (v :: ([] : List Nat).reverse) d = G from hG.symm, map_withState h.sorted]
        unfold Potential.at'
        rw [hcard]
        simp [cellOf, position]
      have hsum : G.data.sum = ∑ i ∈ Finset.range (card v), written card v [] d (withState x v i) := by
        rw [← Finset.sum_congr rfl (fun i hi => hval i (by simpa using hi)), ← hlen]
        rw [← sum_range_list]
        congr 1
        apply List.ext_getElem
        · simp
        · intro i h1 h2
          simp [List.getD_eq_getElem?_getD, h1]
      have hat : ∀ l : List K, (⟨G.card, l⟩ : Potential K).at' [x v] = l.getD (x v) 0 := by
        intro l
        unfold Potential.at'
        simp only [hcard]
        simp [cellOf, position]
      rw [hpp, List.map_cons, List.map_nil, hat]
      simp only
      unfold scaled
      rw [← hsum]
      have h0 := hval (x v) hxv
      rw [withState_self] at h0
      split
      · exact h0
      · rw [← h0, List.getD_eq_getElem?_getD, List.getD_eq_getElem?_getD, List.getElem?_map]
        have : x v < G.data.length := by rw [hlen]; exact hxv
        rw [List.getElem?_eq_getElem this]
        rfl

end Nip
