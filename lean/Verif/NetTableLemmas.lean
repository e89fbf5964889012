import Verif.NetTable
import Verif.PotentialLemmas
import Verif.Spec.NetTable
import Mathlib.Data.List.Induction
import Verif.Props.Potential
import Mathlib.Algebra.Order.BigOperators.Ring.Finset

/-! # Lemmas about reading conditional tables -/

set_option linter.unusedSectionVars false

namespace Nip

open Res Spec Potential

/-- number of members of the family with a smaller identity -/
def rank (F : List Nat) (v : Nat) : Nat := F.countP (fun u => decide (u < v))

theorem smallerCounts_eq (F : List Nat) : smallerCounts F = ok (F.map (rank F)) := by
  obtain ⟨t, ht, hP⟩ := loop_inv (n := F.length) (s := List.replicate F.length 0)
    (f := fun i t => do
      let temp ← rd F i
      loop F.length (fun j t => do
        let v ← rd F j
        if v > temp then do
          let n ← rd t j
          wr t j (n + 1)
        else ok t) t)
    (fun i t => t = F.map (rank (F.take i)))
    (by
      apply List.ext_getElem <;> simp [rank])
    (by
      intro i hi t ht
      subst ht
      refine ⟨_, ?_, rfl⟩
      rw [rd_lt hi]
      simp only [ok_bind]
      have hl : (F.map (rank (F.take i))).length = F.length := by simp
      have := loop_mapIdx_all (t0 := F.map (rank (F.take i)))
        (f := fun j t => do
          let v ← rd F j
          if v > F[i] then do
            let n ← rd t j
            wr t j (n + 1)
          else ok t)
        (g := fun j a => if F.getD j 0 > F[i] then a + 1 else a)
        (by
          intro j hj t htj hlen
          rw [hl] at hj
          simp only [rd_lt hj, ok_bind]
          rw [List.getD_eq_getElem _ _ hj]
          by_cases h : F[j] > F[i]
          · simp only [h, if_true]
            rw [rd_lt htj]
            simp only [ok_bind]
            rw [wr_lt htj]
          · simp only [h, if_false]
            rw [List.set_getElem_self])
      rw [hl] at this
      rw [this]
      congr 1
      apply List.ext_getElem
      · simp
      · intro j h1 h2
        have hj : j < F.length := by simpa using h2
        simp only [List.getElem_mapIdx, List.getElem_map]
        rw [List.getD_eq_getElem _ _ hj]
        have key : ∀ v, rank (F.take (i + 1)) v = rank (F.take i) v + (if F[i] < v then 1 else 0) := by
          intro v
          unfold rank
          rw [List.take_add_one, List.countP_append, List.getElem?_eq_getElem hi]
          by_cases h : F[i] < v <;> simp [h]
        rw [key]
        by_cases h : F[i] < F[j] <;> simp [h])
  unfold smallerCounts
  rw [ht, hP, List.take_length]

theorem rank_getElem {s F : List Nat} (h : Sorts s F) {k : Nat} (hk : k < s.length) : rank F s[k] = k := by
  unfold rank
  rw [← h.perm.countP_eq]
  have hs := h.sorted
  clear h
  induction s generalizing k with
  | nil => simp at hk
  | cons a s ih =>
    rw [List.pairwise_cons] at hs
    cases k with
    | zero =>
      simp only [List.getElem_cons_zero]
      rw [List.countP_eq_zero]
      intro u hu
      rcases List.mem_cons.1 hu with rfl | hu
      · simp
      · have := hs.1 u hu
        simp; omega
    | succ k =>
      have hk' : k < s.length := by simpa using hk
      simp only [List.getElem_cons_succ]
      rw [List.countP_cons, ih hk' hs.2]
      simp [hs.1 s[k] (List.getElem_mem hk')]

theorem rank_mem {s F : List Nat} (h : Sorts s F) {v : Nat} (hv : v ∈ F) :
    ∃ hk : rank F v < s.length, s[rank F v] = v := by
  obtain ⟨k, hk, rfl⟩ := List.getElem_of_mem (h.perm.mem_iff.2 hv)
  rw [rank_getElem h hk]
  exact ⟨hk, rfl⟩

theorem rank_inj {s F : List Nat} (h : Sorts s F) {u v : Nat} (hu : u ∈ F) (hv : v ∈ F) (he : rank F u = rank F v) : u = v := by
  obtain ⟨_, h1⟩ := rank_mem h hu
  obtain ⟨_, h2⟩ := rank_mem h hv
  rw [← h1, ← h2]
  simp only [he]

theorem sorts_nodup {s F : List Nat} (h : Sorts s F) : F.Nodup :=
  h.perm.nodup_iff.1 (h.sorted.imp (fun h => Nat.ne_of_lt h))

theorem reordering_spec {s F : List Nat} (h : Sorts s F) :
    ∃ r, reordering (F.map (rank F)) F.length = ok r ∧ r.length = F.length ∧
      ∀ j (hj : j < F.length), r[rank F F[j]]? = some j := by
  have hlen := h.perm.length_eq
  obtain ⟨r, hr, hP⟩ := loop_inv (n := F.length) (s := List.replicate F.length 0)
    (f := fun i r => do
      let k ← rd (F.map (rank F)) i
      wr r k i)
    (fun i r => r.length = F.length ∧ ∀ j (_ : j < i) (hj : j < F.length), r[rank F F[j]]? = some j)
    ⟨by simp, by intro j hj; omega⟩
    (by
      intro i hi r ⟨hr, hP⟩
      obtain ⟨hk, hke⟩ := rank_mem h (List.getElem_mem hi)
      refine ⟨r.set (rank F F[i]) i, ?_, by simpa using hr, ?_⟩
      · rw [rd_lt (by simpa using hi)]
        simp only [ok_bind, List.getElem_map]
        rw [wr_lt (by omega)]
      · intro j hji hj
        by_cases he : j = i
        · subst he
          rw [List.getElem?_set_self (by omega)]
        · have hne : rank F F[i] ≠ rank F F[j] := by
            intro hh
            have := rank_inj h (List.getElem_mem hi) (List.getElem_mem hj) hh
            exact he ((List.Nodup.getElem_inj_iff (sorts_nodup h)).1 this).symm
          rw [List.getElem?_set_ne hne]
          exact hP j (by omega) hj)
  exact ⟨r, hr, hP.1, fun j hj => hP.2 j hj hj⟩

theorem givenIndex_eq {s F : List Nat} (h : Sorts s F) (card : Nat → Nat) {idx : List Nat} (hidx : idx.length = s.length) :
    givenIndex (F.map (rank F)) (s.map card) idx F.length =
      ok (position (F.map card) (F.map (fun v => idx.getD (rank F v) 0))) := by
  obtain ⟨st, hst, hP⟩ := loop_inv (n := F.length) (s := ((0, 1) : Nat × Nat))
    (f := fun j (st : Nat × Nat) => do
      let k ← rd (F.map (rank F)) j
      let x ← rd idx k
      let c ← rd (s.map card) k
      ok (st.1 + x * st.2, st.2 * c))
    (fun j st => st = (position ((F.map card).take j) (F.map (fun v => idx.getD (rank F v) 0)), ((F.map card).take j).prod))
    (by simp [position])
    (by
      intro i hi st hst
      subst hst
      obtain ⟨hk, hke⟩ := rank_mem h (List.getElem_mem hi)
      refine ⟨_, ?_, rfl⟩
      rw [rd_lt (by simpa using hi)]
      simp only [ok_bind, List.getElem_map]
      rw [rd_lt (by omega)]
      simp only [ok_bind]
      rw [rd_lt (by simpa using hk)]
      simp only [ok_bind, List.getElem_map, hke]
      have hi' : i < (F.map card).length := by simpa using hi
      rw [List.take_add_one, List.getElem?_eq_getElem hi', Option.toList_some, List.prod_append,
        position_append _ _ _ (by simp)]
      have hdrop : (F.map (fun v => idx.getD (rank F v) 0)).drop ((F.map card).take i).length =
          idx[rank F F[i]] :: (F.map (fun v => idx.getD (rank F v) 0)).drop (i + 1) := by
        have : ((F.map card).take i).length = i := by simp; omega
        rw [this, List.drop_eq_getElem_cons (by simpa using hi)]
        simp only [List.getElem_map]
        rw [List.getD_eq_getElem _ _ (by omega)]
      rw [hdrop]
      simp only [position, List.prod_singleton, List.getElem_map, Nat.mul_zero, Nat.add_zero]
      rw [Nat.mul_comm])
  unfold givenIndex
  rw [hst, hP]
  simp only [ok_bind]
  have hl : F.length = (F.map card).length := by simp
  rw [hl, List.take_length]

variable {K : Type} [Field K] [LinearOrder K]

/-- the table made of the numbers -/
def givenTable (card : Nat → Nat) (s F : List Nat) (data : List K) : Potential K :=
  ofFn (s.map card) (fun idx => data.getD (position (F.map card) (F.map (fun v => idx.getD (rank F v) 0))) 0)

theorem positive_map {card : Nat → Nat} {s F : List Nat} (h : Sorts s F) (hpos : ∀ v ∈ F, 0 < card v) : Positive (s.map card) := by
  intro c hc
  obtain ⟨v, hv, rfl⟩ := List.mem_map.1 hc
  exact hpos v (h.perm.mem_iff.1 hv)

theorem given_inRange {card : Nat → Nat} {s F : List Nat} (h : Sorts s F) {idx : List Nat} (hi : InRange (s.map card) idx) :
    InRange (F.map card) (F.map (fun v => idx.getD (rank F v) 0)) := by
  unfold InRange
  rw [List.forall₂_map_left_iff, List.forall₂_map_right_iff, List.forall₂_same]
  intro v hv
  obtain ⟨hk, hke⟩ := rank_mem h hv
  have hl := hi.length_eq
  simp only [List.length_map] at hl
  rw [List.getD_eq_getElem _ _ (by omega)]
  have := List.forall₂_iff_get.1 hi
  have := this.2 (rank F v) (by omega) (by simpa using hk)
  simpa [hke] using this

theorem createPotential_eq {s F : List Nat} (h : Sorts s F) {card : Nat → Nat} (hpos : ∀ v ∈ F, 0 < card v) (data : Option (List K))
    (hdata : ∀ d, data = some d → (F.map card).prod ≤ d.length) :
    createPotential card F data = ok (some (match data with
      | none => ⟨s.map card, List.replicate (s.map card).prod 1⟩
      | some d => givenTable card s F d)) := by
  have hlen := h.perm.length_eq
  obtain ⟨r, hr, hrl, hrP⟩ := reordering_spec h
  have hat : ∀ k (hk : k < s.length), ∃ j, ∃ hj : j < F.length, r[k]? = some j ∧ F[j] = s[k] := by
    intro k hk
    obtain ⟨j, hj, he⟩ := List.getElem_of_mem (h.perm.mem_iff.1 (List.getElem_mem hk))
    refine ⟨j, hj, ?_, he⟩
    have := hrP j hj
    rwa [he, rank_getElem h hk] at this
  obtain ⟨st, hst, hP1, hP2⟩ := loop_inv (n := F.length) (s := ((List.replicate F.length 0, 1) : List Nat × Nat))
    (f := fun i (st : List Nat × Nat) => do
      let k ← rd r i
      let v ← rd F k
      let a ← wr st.1 i (card v)
      ok (a, st.2 * card v))
    (fun i st => st.1 = (s.map card).take i ++ List.replicate (F.length - i) 0 ∧ st.2 = ((s.map card).take i).prod)
    (by simp)
    (by
      rintro i hi ⟨a, z⟩ ⟨ha, hz⟩
      simp only at ha hz
      subst ha hz
      obtain ⟨j, hj, hrj, he⟩ := hat i (by omega)
      have hi' : i < (s.map card).length := by simp; omega
      refine ⟨((s.map card).take (i + 1) ++ List.replicate (F.length - (i + 1)) 0, ((s.map card).take (i + 1)).prod), ?_, rfl, rfl⟩
      rw [(rd_eq_ok).2 hrj]
      simp only [ok_bind]
      rw [rd_lt hj]
      simp only [ok_bind, he]
      rw [wr_lt (by simp; omega)]
      simp only [ok_bind]
      congr 1
      rw [List.take_add_one, List.getElem?_eq_getElem hi', Option.toList_some, List.prod_append]
      have h1 : ((s.map card).take i).length = i := by simp; omega
      rw [List.set_append_right _ _ (by omega), h1]
      have h2 : F.length - i = (F.length - (i + 1)) + 1 := by omega
      rw [h2, List.replicate_succ]
      simp)
  obtain ⟨a, z⟩ := st
  simp only at hP1 hP2
  have hfull : (s.map card).take F.length = s.map card := by
    rw [List.take_of_length_le (by simp; omega)]
  rw [hfull] at hP1 hP2
  simp only [Nat.sub_self, List.replicate_zero, List.append_nil] at hP1
  subst hP1 hP2
  have hp := positive_map h hpos
  unfold createPotential
  rw [smallerCounts_eq]
  simp only [ok_bind]
  rw [hr]
  simp only [ok_bind]
  rw [hst]
  simp only [ok_bind]
  have hnew := new_none (K := K) (card := s.map card)
  have hl : (s.map card).length = F.length := by simp [hlen]
  rw [hl] at hnew
  rw [hnew]
  simp only [ok_bind]
  cases data with
  | none => rfl
  | some d =>
    simp only
    have hd := hdata d rfl
    obtain ⟨⟨cells, ind⟩, hloop, hc, hi, hv⟩ := loop_inv (n := (s.map card).prod)
      (s := ((List.replicate (s.map card).prod 1, List.replicate F.length 0) : List K × List Nat))
      (f := fun i (st : List K × List Nat) => do
        let indices ← Potential.inverseMapping (s.map card)
          (Potential.size ({ card := s.map card, data := List.replicate (s.map card).prod 1 } : Potential K)) i st.2
        let index ← givenIndex (F.map (rank F)) (s.map card) indices F.length
        let x ← rd d index
        let cells ← wr st.1 i x
        ok (cells, indices))
      (fun i st => st.1.length = (s.map card).prod ∧ st.2.length = F.length ∧ ∀ k, k < i → k < (s.map card).prod →
        st.1[k]? = some (d.getD (position (F.map card) (F.map (fun v => (digits (s.map card) k).getD (rank F v) 0))) 0))
      ⟨by simp, by simp, by intro k hk; omega⟩
      (by
        rintro i hi ⟨cells, ind⟩ ⟨h1, h2, h3⟩
        simp only at h1 h2 h3
        have hin := given_inRange h (digits_inRange hp i)
        have hlt : position (F.map card) (F.map (fun v => (digits (s.map card) i).getD (rank F v) 0)) < d.length :=
          Nat.lt_of_lt_of_le (position_lt hin) hd
        refine ⟨(cells.set i (d.getD (position (F.map card) (F.map (fun v => (digits (s.map card) i).getD (rank F v) 0))) 0),
          digits (s.map card) i), ?_, by simpa using h1, by simp [hlen], ?_⟩
        · simp only [Potential.size, List.length_replicate]
          rw [inverseMapping_eq hp hi (by rw [h2, hl])]
          simp only [ok_bind]
          rw [givenIndex_eq h card (by simp)]
          simp only [ok_bind]
          rw [rd_lt hlt]
          simp only [ok_bind]
          rw [wr_lt (by omega)]
          simp only [ok_bind]
          rw [List.getD_eq_getElem _ _ hlt]
        · intro k hk hkp
          by_cases hki : k = i
          · subst hki
            simp only
            rw [List.getElem?_set_self (by omega)]
          · simp only
            rw [List.getElem?_set_ne (by omega)]
            exact h3 k (by omega) hkp)
    rw [hloop]
    simp only [ok_bind]
    congr 2
    unfold givenTable ofFn
    congr 1
    apply List.ext_getElem?
    intro k
    by_cases hk : k < (s.map card).prod
    · rw [hv k hk hk, List.getElem?_map, List.getElem?_range hk]
      rfl
    · simp only at hc
      rw [List.getElem?_eq_none (by omega), List.getElem?_eq_none (by simp; simpa using hk)]

theorem map_getD_rank {s F : List Nat} (h : Sorts s F) (x : Nat → Nat) :
    F.map (fun v => (s.map x).getD (rank F v) 0) = F.map x := by
  apply List.map_congr_left
  intro v hv
  obtain ⟨hk, hke⟩ := rank_mem h hv
  rw [List.getD_eq_getElem _ _ (by simpa using hk), List.getElem_map, hke]

theorem inRange_map {card x : Nat → Nat} {s : List Nat} (hx : ∀ v ∈ s, x v < card v) : InRange (s.map card) (s.map x) := by
  unfold InRange
  rw [List.forall₂_map_left_iff, List.forall₂_map_right_iff, List.forall₂_same]
  exact hx

theorem givenTable_at' {s F : List Nat} (h : Sorts s F) (card x : Nat → Nat) (d : List K) (hx : ∀ v ∈ F, x v < card v) :
    (givenTable card s F d).at' (s.map x) = d.getD (position (F.map card) (F.map x)) 0 := by
  unfold givenTable
  rw [ofFn_at' _ (inRange_map (fun v hv => hx v (h.perm.mem_iff.1 hv))), map_getD_rank h]

theorem givenTable_wf {s F : List Nat} (h : Sorts s F) {card : Nat → Nat} (hpos : ∀ v ∈ F, 0 < card v) (d : List K) :
    (givenTable card s F d).Wf := ofFn_wf (positive_map h hpos) _

theorem parentList_eq (l : List Nat) : parentList l = l.reverse := by
  have : ∀ (l acc : List Nat), l.foldl (fun l v => v :: l) acc = l.reverse ++ acc := by
    intro l
    induction l with
    | nil => simp
    | cons a l ih => intro acc; simp [ih]
  rw [parentList, this, List.append_nil]

theorem size_eq (card : Nat → Nat) (l : List Nat) : l.foldl (fun s v => s * card v) 1 = (l.map card).prod := by
  have : ∀ (l : List Nat) a, l.foldl (fun s v => s * card v) a = a * (l.map card).prod := by
    intro l
    induction l with
    | nil => simp
    | cons v l ih => intro a; simp [ih, Nat.mul_assoc]
  simpa using this l 1

theorem rowMajor_eq (card x : Nat → Nat) (l : List Nat) :
    rowMajor card x l = position (l.reverse.map card) (l.reverse.map x) := by
  unfold rowMajor
  induction l using List.reverseRecOn with
  | nil => rfl
  | append_singleton l v ih =>
    rw [List.foldl_append, ih]
    simp only [List.foldl_cons, List.foldl_nil, List.reverse_append, List.reverse_cons, List.reverse_nil, List.nil_append,
      List.singleton_append, List.map_cons, position]
    rw [Nat.mul_comm, Nat.add_comm]

theorem sorts_family {s : List Nat} {child : Nat} {symbols : List Nat} (h : Sorts s (child :: symbols)) :
    Sorts s (child :: symbols.reverse) :=
  ⟨h.sorted, h.perm.trans ((List.reverse_perm symbols).symm.cons child)⟩

theorem written_eq {s : List Nat} {child : Nat} {symbols : List Nat} (h : Sorts s (child :: symbols)) (card x : Nat → Nat) (d : List K)
    (hx : Combination card (child :: symbols) x) :
    (givenTable card s (child :: symbols.reverse) d).at' (s.map x) = written card child symbols d x := by
  rw [givenTable_at' (sorts_family h) card x d (by intro v hv; exact hx v (by simpa using hv)), written, rowMajor_eq]
  simp

theorem prod_family (card : Nat → Nat) (child : Nat) (symbols : List Nat) :
    ((child :: symbols.reverse).map card).prod = ((child :: symbols).map card).prod := by
  simp [List.prod_reverse]

theorem map_withState {v : Nat} {s : List Nat} (h : (v :: s).Pairwise (· < ·)) (x : Nat → Nat) (i : Nat) :
    (v :: s).map (withState x v i) = i :: s.map x := by
  rw [List.map_cons]
  congr 1
  · simp [withState]
  · apply List.map_congr_left
    intro u hu
    have := (List.pairwise_cons.1 h).1 u hu
    simp only [withState]
    rw [if_neg (by omega)]

theorem combination_withState {card : Nat → Nat} {F : List Nat} {x : Nat → Nat} (hx : Combination card F x) {v i : Nat}
    (hi : i < card v) : Combination card F (withState x v i) := by
  intro u hu
  unfold withState
  split
  · next h => rw [h]; exact hi
  · exact hx u hu

/-- the rule for a table with parents and numbers -/
theorem declaration_data {v : Nat} {s : List Nat} {child : Nat} {symbols : List Nat} (h : Sorts (v :: s) (child :: symbols))
    {card : Nat → Nat} (hpos : ∀ u ∈ child :: symbols, 0 < card u) (hsym : symbols ≠ []) {d : List K}
    (hd : ((child :: symbols).map card).prod ≤ d.length) :
    ∃ p, potentialDeclaration card child (some symbols) (some d) = ok (some { child := child, parents := symbols.reverse, table := p }) ∧
      p.Wf ∧ p.card = (v :: s).map card ∧
      ∀ x, Combination card (child :: symbols) x → p.at' ((v :: s).map x) =
        if (∑ i ∈ Finset.range (card v), written card child symbols d (withState x v i)) = 0 then written card child symbols d x
        else written card child symbols d x / ∑ i ∈ Finset.range (card v), written card child symbols d (withState x v i) := by
  have hF := sorts_family h
  have hpos' : ∀ u ∈ child :: symbols.reverse, 0 < card u := by intro u hu; exact hpos u (by simpa using hu)
  have hc := createPotential_eq hF hpos' (some d) (by
    intro d' hd'
    rw [← Option.some.inj hd', prod_family]; exact hd)
  have hwf := givenTable_wf hF hpos' d
  have hcard : (givenTable card (v :: s) (child :: symbols.reverse) d).card = card v :: s.map card := rfl
  obtain ⟨q, hq, hqw, hqc, hqv⟩ := normaliseCpd_at' hwf hcard
  refine ⟨q, ?_, hqw, by rw [hqc, hcard]; rfl, ?_⟩
  · unfold potentialDeclaration
    simp only [hsym, if_false, parentList_eq, size_eq]
    rw [if_neg (by
      simp only [Option.any_some, decide_eq_true_eq]
      rw [prod_family]; omega)]
    rw [hc]
    simp only [ok_bind]
    rw [hq]
    simp only [ok_bind]
  · intro x hx
    have hv : v ∈ child :: symbols := h.perm.mem_iff.1 (by simp)
    have hin := inRange_map (card := card) (x := x) (s := s) (fun u hu => hx u (h.perm.mem_iff.1 (by simp [hu])))
    have hmap : ∀ i, i < card v → (givenTable card (v :: s) (child :: symbols.reverse) d).at' (i :: s.map x) =
        written card child symbols d (withState x v i) := by
      intro i hi
      rw [← map_withState h.sorted, written_eq h card _ d (combination_withState hx hi)]
    have hself : withState x v (x v) = x := by
      funext u
      unfold withState
      split
      · next hu => rw [hu]
      · rfl
    rw [List.map_cons, hqv (x v) (s.map x) (hx v hv) hin, hmap (x v) (hx v hv), hself,
      Finset.sum_congr rfl (fun i hi => hmap i (by simpa using hi))]

variable [IsStrictOrderedRing K]

theorem segSum_nonneg {d : List K} (h : ∀ a ∈ d, 0 ≤ a) (off n : Nat) : 0 ≤ segSum d off n := by
  unfold segSum
  apply Finset.sum_nonneg
  intro i _
  rw [List.getD_eq_getElem?_getD]
  cases hg : d[off + i]? with
  | none => simp
  | some a => exact h a (List.mem_of_getElem? hg)

theorem normaliseCpd_nonneg {p q : Potential K} (hp : p.Wf) {n : Nat} {cs : List Nat} (hc : p.card = n :: cs)
    (h : ∀ a ∈ p.data, 0 ≤ a) (hq : normaliseCpd p = ok q) : ∀ a ∈ q.data, 0 ≤ a := by
  rw [normaliseCpd_eq hp hc] at hq
  cases hq
  intro a ha
  obtain ⟨i, hi, rfl⟩ := List.mem_mapIdx.1 ha
  unfold cpdCell
  have h0 := h _ (List.getElem_mem hi)
  split
  · exact h0
  · exact div_nonneg h0 (segSum_nonneg h _ _)

theorem givenTable_nonneg {card : Nat → Nat} {s F : List Nat} {d : List K} (h : ∀ a ∈ d, 0 ≤ a) :
    ∀ a ∈ (givenTable card s F d).data, 0 ≤ a := by
  intro a ha
  unfold givenTable ofFn at ha
  obtain ⟨j, _, rfl⟩ := List.mem_map.1 ha
  simp only
  rw [List.getD_eq_getElem?_getD]
  cases hg : d[position (F.map card) (F.map (fun v => (digits (s.map card) j).getD (rank F v) 0))]? with
  | none => simp
  | some a => exact h a (List.mem_of_getElem? hg)

/-- every rule -/
theorem declaration_spec {card : Nat → Nat} {child : Nat} {symbols : Option (List Nat)} {data : Option (List K)}
    (hd : Declared card child symbols data) {s : List Nat} (h : Sorts s (child :: symbols.getD [])) :
    ∃ p, potentialDeclaration card child symbols data =
        ok (some { child := child, parents := (symbols.getD []).reverse, table := p }) ∧
      p.Wf ∧ p.card = s.map card ∧ ∀ a ∈ p.data, 0 ≤ a := by
  have hone : ∀ n, ∀ a ∈ List.replicate n (1 : K), 0 ≤ a := by
    intro n a ha
    rw [List.eq_of_mem_replicate ha]; exact zero_le_one
  cases symbols with
  | none =>
    simp only [Option.getD_none, List.reverse_nil] at h hd ⊢
    have hstates : ∀ v ∈ [child], 0 < card v := hd.states
    have hs : s = [child] := List.perm_singleton.1 h.perm
    subst hs
    cases data with
    | none =>
      have hc := createPotential_eq (K := K) h hstates none (by intro d hd; cases hd)
      refine ⟨_, ?_, replicate_wf (positive_map h hstates) 1, rfl, hone _⟩
      unfold potentialDeclaration
      simp only
      rw [hc]
      simp only [ok_bind]
    | some d =>
      have hnum := hd.numbers d rfl
      simp only [Option.getD_none, List.map_cons, List.map_nil, List.prod_singleton] at hnum
      have hc := createPotential_eq (K := K) h hstates (some d) (by
        intro d' hd'
        rw [← Option.some.inj hd']; simpa using hnum.1)
      have hwf := givenTable_wf h hstates d
      refine ⟨⟨(givenTable card [child] [child] d).card, if (givenTable card [child] [child] d).data.sum = 0 then
        (givenTable card [child] [child] d).data else
        (givenTable card [child] [child] d).data.map (· / (givenTable card [child] [child] d).data.sum)⟩, ?_, ?_, rfl, ?_⟩
      · unfold potentialDeclaration
        simp only
        rw [if_neg (by omega), hc]
        simp only [ok_bind]
        unfold normalise Potential.size
        rw [Props.normaliseArray_full]
        simp only [ok_bind]
      · refine ⟨?_, hwf.2⟩
        simp only
        rw [← hwf.1]
        split <;> simp
      · have hn := givenTable_nonneg (card := card) (s := [child]) (F := [child]) hnum.2
        intro a ha
        simp only at ha
        split at ha
        · exact hn a ha
        · obtain ⟨b, hb, rfl⟩ := List.mem_map.1 ha
          exact div_nonneg (hn b hb) (List.sum_nonneg hn)
  | some l =>
    simp only [Option.getD_some] at h ⊢
    have hp := hd.parents l rfl
    have hF := sorts_family h
    have hpos' : ∀ u ∈ child :: l.reverse, 0 < card u := by
      intro u hu; exact hd.states u (by simpa using hu)
    obtain ⟨v, t, rfl⟩ : ∃ v t, s = v :: t := by
      cases s with
      | nil => exact absurd h.perm.length_eq (by simp)
      | cons v t => exact ⟨v, t, rfl⟩
    cases data with
    | none =>
      have hc := createPotential_eq (K := K) hF hpos' none (by intro d hd; cases hd)
      have hwf := replicate_wf (K := K) (positive_map hF hpos') 1
      obtain ⟨q, hq, hqw, hqc, _⟩ := normaliseCpd_at' hwf (n := card v) (cs := t.map card) rfl
      refine ⟨q, ?_, hqw, hqc, normaliseCpd_nonneg hwf rfl (hone _) hq⟩
      unfold potentialDeclaration
      simp only [hp.1, if_false, parentList_eq, Option.any_none, Bool.false_eq_true]
      rw [hc]
      simp only [ok_bind]
      rw [hq]
      simp only [ok_bind]
    | some d =>
      have hnum := hd.numbers d rfl
      simp only [Option.getD_some] at hnum
      have hc := createPotential_eq hF hpos' (some d) (by
        intro d' hd'
        rw [← Option.some.inj hd', prod_family]; exact hnum.1)
      have hwf := givenTable_wf hF hpos' d
      obtain ⟨q, hq, hqw, hqc, _⟩ := normaliseCpd_at' hwf (n := card v) (cs := t.map card) rfl
      refine ⟨q, ?_, hqw, hqc, normaliseCpd_nonneg hwf rfl (givenTable_nonneg hnum.2) hq⟩
      unfold potentialDeclaration
      simp only [hp.1, if_false, parentList_eq, size_eq]
      rw [if_neg (by
        simp only [Option.any_some, decide_eq_true_eq]
        rw [prod_family]; omega)]
      rw [hc]
      simp only [ok_bind]
      rw [hq]
      simp only [ok_bind]

/-- Parsing of all potentials of a file: `get` says what is known of each table. -/
theorem parseTables_spec {card : Nat → Nat} {R : Declaration K → Parsed K → Prop} (ds : List (Declaration K))
    (h : ∀ d ∈ ds, ∃ q, potentialDeclaration card d.child d.symbols d.data = ok (some q) ∧ R d q) :
    ∃ l, parseTables card ds = ok (some l) ∧ List.Forall₂ R ds l := by
  induction ds with
  | nil => exact ⟨[], rfl, List.Forall₂.nil⟩
  | cons d ds ih =>
    obtain ⟨q, hq, hR⟩ := h d (by simp)
    obtain ⟨l, hl, hF⟩ := ih (fun d hd => h d (by simp [hd]))
    refine ⟨q :: l, ?_, List.Forall₂.cons hR hF⟩
    unfold parseTables
    rw [hq]
    simp only [ok_bind]
    rw [hl]
    simp only [ok_bind]

end Nip
