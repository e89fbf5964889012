import Verif.Learn
import Verif.Spec.Learn
import Verif.Smoothing
import Verif.NetTableLemmas

/-! # The M-step puts the network with the new parameters into the model -/

namespace Nip

open Res Spec

set_option linter.unusedSectionVars false

/-- places of the child and its parents -/
theorem familyMapping_eq {cvars parents : List Nat} {child : Nat} (hn : cvars.Nodup) (hp : parents.Nodup) (hc : child ∈ cvars)
    (hsub : ∀ u ∈ parents, u ∈ cvars) : familyMapping cvars child parents = ok (places cvars (child :: parents)) := by
  obtain ⟨place, hplace⟩ : ∃ place : Nat → Nat, place = fun u => cvars.findIdx (fun y => u == y) := ⟨_, rfl⟩
  have hlt : ∀ u ∈ cvars, place u < cvars.length := by
    intro u hu; rw [hplace]; exact List.findIdx_lt_length_of_exists ⟨u, hu, by simp⟩
  have hget : ∀ u (hu : u ∈ cvars), cvars[place u]'(hlt u hu) = u := by
    intro u hu
    have := List.findIdx_getElem (xs := cvars) (p := fun y => u == y) (w := by have := hlt u hu; rw [hplace] at this; exact this)
    simp only [beq_iff_eq] at this
    simp only [hplace]
    exact this.symm
  have hpl : ∀ i (hi : i < cvars.length), place cvars[i] = i := by
    intro i hi
    exact (List.Nodup.getElem_inj_iff hn).mp (hget cvars[i] (List.getElem_mem hi))
  have hpi : ∀ u ∈ cvars, ∀ i (hi : i < cvars.length), place u = i ↔ u = cvars[i] := by
    intro u hu i hi
    constructor
    · intro h; subst h; exact (hget u hu).symm
    · rintro rfl; exact hpl i hi
  have hmem : ∀ u ∈ cvars, ∀ i, u ∈ cvars.take i ↔ place u < i := by
    intro u hu i
    rw [List.mem_take_iff_getElem]
    constructor
    · rintro ⟨j, hj, rfl⟩
      have : j < cvars.length := by omega
      rw [hpl j this]; omega
    · intro h
      exact ⟨place u, by have := hlt u hu; omega, hget u hu⟩
  have hfind : cvars.findIdx? (fun y => child == y) = some (place child) := by
    rw [hplace]
    exact List.findIdx?_eq_some_of_exists ⟨child, hc, by simp⟩
  unfold familyMapping
  rw [findVar_eq, hfind, ok_bind]
  simp only
  rw [wr_lt (by simp), ok_bind]
  have hstart : (List.replicate (parents.length + 1) 0).set 0 (place child) = place child :: parents.map (fun u => if place u < 0 then place u else 0) := by
    rw [List.replicate_succ, List.set_cons_zero]
    congr 1
    simp
  have hend : places cvars (child :: parents) = place child :: parents.map place := by
    unfold places; rw [hplace]; rfl
  rw [hstart, hend]
  by_cases hz : 0 < parents.length
  · rw [if_pos hz]
    obtain ⟨st, e1, e2⟩ := loop_inv (n := cvars.length) (s := (0, place child :: parents.map (fun u => if place u < 0 then place u else 0)))
      (f := fun i (st : Nat × List Nat) =>
        if st.1 = parents.length then ok st
        else do
          let v ← rd cvars i
          let j ← findVar v parents parents.length
          match j with
          | some j => do
            let r ← wr st.2 (j + 1) i
            ok (st.1 + 1, r)
          | none => ok st)
      (fun i st => st = (((cvars.take i).filter (fun u => decide (u ∈ parents))).length, place child :: parents.map (fun u => if place u < i then place u else 0)))
      (by simp) (by
        rintro i hi st rfl
        simp only
        have htake : (cvars.take (i + 1)).filter (fun u => decide (u ∈ parents)) =
            (cvars.take i).filter (fun u => decide (u ∈ parents)) ++ if cvars[i] ∈ parents then [cvars[i]] else [] := by
          rw [List.take_succ_eq_append_getElem hi, List.filter_append]
          congr 1
          by_cases h : cvars[i] ∈ parents <;> simp [h]
        have hstay : cvars[i] ∉ parents → parents.map (fun u => if place u < i then place u else 0) =
            parents.map (fun u => if place u < i + 1 then place u else 0) := by
          intro h
          apply List.map_congr_left
          intro u hu
          have : place u ≠ i := by
            intro h1
            rw [hpi u (hsub u hu) i hi] at h1
            exact h (h1 ▸ hu)
          by_cases h2 : place u < i
          · rw [if_pos h2, if_pos (by omega)]
          · rw [if_neg h2, if_neg (by omega)]
        by_cases hfull : ((cvars.take i).filter (fun u => decide (u ∈ parents))).length = parents.length
        · rw [if_pos hfull]
          have hno : cvars[i] ∉ parents := by
            intro h
            have hsp : ((cvars.take i).filter (fun u => decide (u ∈ parents))).Subperm parents :=
              List.subperm_of_subset ((hn.sublist (List.take_sublist _ _)).filter _) (fun u hu => by simpa using (List.mem_filter.mp hu).2)
            have hpm := hsp.perm_of_length_le (by omega)
            have := hpm.mem_iff.mpr h
            rw [List.mem_filter, hmem _ (List.getElem_mem hi), hpl i hi] at this
            omega
          refine ⟨_, rfl, ?_⟩
          rw [htake, if_neg hno, List.append_nil, hstay hno]
        · rw [if_neg hfull, rd_lt hi, ok_bind, findVar_eq, ok_bind]
          by_cases hin : cvars[i] ∈ parents
          · obtain ⟨j, hj⟩ : ∃ j, parents.findIdx? (fun y => cvars[i] == y) = some j := ⟨_, List.findIdx?_eq_some_of_exists (p := fun y => cvars[i] == y) ⟨cvars[i], hin, by simp⟩⟩
            rw [hj]
            obtain ⟨hjl, hjv, _⟩ := List.findIdx?_eq_some_iff_getElem.mp hj
            simp only [beq_iff_eq] at hjv
            simp only
            rw [wr_lt (by simpa using hjl), ok_bind]
            refine ⟨_, rfl, ?_⟩
            rw [htake, if_pos hin, List.length_append, List.length_singleton, List.set_cons_succ]
            congr 2
            apply List.ext_getElem
            · simp
            · intro k h1 h2
              have hk : k < parents.length := by simpa using h2
              simp only [List.getElem_set, List.getElem_map]
              by_cases e : j = k
              · subst e
                rw [if_pos rfl, if_pos, ← hjv, hpl i hi]
                rw [← hjv, hpl i hi]; omega
              · rw [if_neg e]
                have hne : place parents[k] ≠ i := by
                  intro h3
                  rw [hpi _ (hsub _ (List.getElem_mem hk)) i hi, hjv] at h3
                  exact e ((List.Nodup.getElem_inj_iff hp).mp h3).symm
                by_cases h4 : place parents[k] < i
                · rw [if_pos h4, if_pos (by omega)]
                · rw [if_neg h4, if_neg (by omega)]
          · have hnone : parents.findIdx? (fun y => cvars[i] == y) = none := by
              rw [List.findIdx?_eq_none_iff]
              intro u hu
              simp only [beq_eq_false_iff_ne]
              rintro rfl; exact hin hu
            rw [hnone]
            refine ⟨_, rfl, ?_⟩
            rw [htake, if_neg hin, List.append_nil, hstay hin])
    refine Eq.trans (congrArg (fun r => Res.bind r _) e1) ?_
    rw [ok_bind', e2]
    simp only
    congr 2
    apply List.map_congr_left
    intro u hu
    rw [if_pos (hlt u (hsub u hu))]
  · rw [if_neg hz]
    have : parents = [] := by rw [← List.length_eq_zero_iff]; omega
    subst this
    rfl

variable {K : Type} [Field K] [LinearOrder K] [IsStrictOrderedRing K]

/-! ### the network with new tables -/

theorem givens_eq {f : NetFile K} (v : Nat) : f.givens v = NetFile.parentsOf f v := by
  unfold NetFile.parentsOf NetFile.givens
  split
  · rename_i q h
    have h1 := List.find?_some h
    have h2 := List.mem_of_find?_eq_some h
    simp only [decide_eq_true_eq] at h1
    rw [if_pos (List.mem_map.mpr ⟨q, h2, h1⟩)]
    unfold parentsIn
    rw [h]
  · rename_i h
    unfold parentsIn
    rw [h]
    simp

theorem givens_child {f : NetFile K} (hf : f.Valid) {q : Parsed K} (hq : q ∈ f.pots) : f.givens q.child = q.parents := by
  rw [givens_eq]; exact parentsOf_child hf hq

theorem givens_spec {f : NetFile K} (hf : f.Valid) (v : Nat) : (f.givens v).Nodup ∧ ∀ u ∈ f.givens v, u ∈ f.vars ∧ u ≠ v := by
  by_cases h : ∃ q ∈ f.pots, q.child = v
  · obtain ⟨q, hq, rfl⟩ := h
    rw [givens_child hf hq]
    exact hf.parents q hq
  · have : f.givens v = [] := by
      unfold NetFile.givens
      have : f.pots.find? (fun q => decide (q.child = v)) = none := by
        rw [List.find?_eq_none]
        intro q hq; simpa using fun e => h ⟨q, hq, e⟩
      rw [this]
    rw [this]; simp

theorem cell_states {f : NetFile K} (v : Nat) (x : Asg) : states f.card (v :: f.givens v) x = f.cell v (wrap f.card x) := rfl

theorem cell_nodup {f : NetFile K} (hf : f.Valid) (v : Nat) : (v :: f.givens v).Nodup :=
  List.nodup_cons.mpr ⟨fun h => ((givens_spec hf v).2 v h).2 rfl, (givens_spec hf v).1⟩

theorem cell_sub {f : NetFile K} (hf : f.Valid) {v : Nat} (hv : v ∈ f.vars) : ∀ u ∈ v :: f.givens v, u ∈ f.vars := by
  intro u hu
  rcases List.mem_cons.mp hu with rfl | hu
  · exact hv
  · exact ((givens_spec hf v).2 u hu).1

/-- a variable and its parents in the order of the file -/
def famOrder (f : NetFile K) (v : Nat) : List Nat := f.vars.filter (fun u => decide (u = v ∨ u ∈ f.givens v))

theorem mem_famOrder {f : NetFile K} (hf : f.Valid) {v : Nat} (hv : v ∈ f.vars) {u : Nat} : u ∈ famOrder f v ↔ u ∈ v :: f.givens v := by
  unfold famOrder
  rw [List.mem_filter, decide_eq_true_eq, List.mem_cons]
  exact ⟨fun h => h.2, fun h => ⟨cell_sub hf hv u (List.mem_cons.mpr h), h⟩⟩

theorem learned_on {f : NetFile K} (hf : f.Valid) (count : Nat → List Nat → K) (v : Nat) :
    TableOn f.card (famOrder f v) (f.learnedTable count v).table := by
  have hpos : Positive ((famOrder f v).map f.card) := by
    intro c hc
    obtain ⟨u, hu, rfl⟩ := List.mem_map.mp hc
    exact hf.states u (List.mem_filter.mp hu).1
  refine ⟨⟨?_, hpos⟩, rfl⟩
  show (List.map _ (tuples ((famOrder f v).map f.card))).length = ((famOrder f v).map f.card).prod
  rw [List.length_map, tuples_eq hpos]
  simp

theorem learned_sem {f : NetFile K} (hf : f.Valid) (count : Nat → List Nat → K) {v : Nat} (hv : v ∈ f.vars) (x : Asg) :
    sem f.card (famOrder f v) (f.learnedTable count v).table x = estimate (f.card v) (count v) (states f.card (v :: f.givens v) x) := by
  have hpos : ∀ u ∈ famOrder f v, 0 < f.card u := fun u hu => hf.states u (List.mem_filter.mp hu).1
  have hpos' : Positive ((famOrder f v).map f.card) := by
    intro c hc
    obtain ⟨u, hu, rfl⟩ := List.mem_map.mp hc
    exact hpos u hu
  have : (f.learnedTable count v).table = Potential.ofFn ((famOrder f v).map f.card)
      (fun idx => estimate (f.card v) (count v) (f.cell v (fun u => idx.getD ((famOrder f v).idxOf u) 0))) := by
    unfold Potential.ofFn NetFile.learnedTable
    show Potential.mk _ (List.map _ (tuples ((famOrder f v).map f.card))) = _
    rw [tuples_eq hpos', List.map_map]
    rfl
  rw [this, sem_ofFn hpos]
  congr 1
  have key : ∀ u ∈ v :: f.givens v, (states f.card (famOrder f v) x).getD ((famOrder f v).idxOf u) 0 = x u % f.card u := by
    intro u hu
    have hu' := (mem_famOrder hf hv).mpr hu
    have := findIdx_getD hu' (fun u => x u % f.card u) 0
    unfold states
    rw [← this]
    congr 1
    unfold List.idxOf
    congr 1
    funext y
    rw [Bool.eq_iff_iff, beq_iff_eq, beq_iff_eq]
    exact eq_comm
  unfold NetFile.cell states
  rw [List.map_cons]
  congr 1
  · exact key v (List.mem_cons_self ..)
  · apply List.map_congr_left
    intro u hu
    exact key u (List.mem_cons_of_mem _ hu)

theorem estimate_nonneg {n : Nat} {count : List Nat → K} (h : ∀ c, 0 ≤ count c) (cell : List Nat) : 0 ≤ estimate n count cell :=
  div_nonneg (h _) (Finset.sum_nonneg fun _ _ => h _)

theorem relearn_find {f : NetFile K} (count : Nat → List Nat → K) (v : Nat) :
    (f.relearn count).pots.find? (fun q => decide (q.child = v)) = if v ∈ f.vars then some (f.learnedTable count v) else none := by
  show (f.vars.map (f.learnedTable count)).find? _ = _
  rw [List.find?_map]
  by_cases hv : v ∈ f.vars
  · rw [if_pos hv]
    cases h : f.vars.find? ((fun q : Parsed K => decide (q.child = v)) ∘ f.learnedTable count) with
    | none =>
      rw [List.find?_eq_none] at h
      exact absurd (by simp [NetFile.learnedTable]) (h v hv)
    | some u =>
      have := List.find?_some h
      have e : u = v := by simpa [NetFile.learnedTable] using this
      rw [e]; rfl
  · rw [if_neg hv]
    have : f.vars.find? ((fun q : Parsed K => decide (q.child = v)) ∘ f.learnedTable count) = none := by
      rw [List.find?_eq_none]
      intro u hu
      intro e
      have e' : u = v := of_decide_eq_true e
      exact hv (e' ▸ hu)
    rw [this]; rfl

theorem relearn_givens {f : NetFile K} (hf : f.Valid) (count : Nat → List Nat → K) : (f.relearn count).givens = f.givens := by
  funext v
  have : (f.relearn count).givens v = match (f.relearn count).pots.find? (fun q => decide (q.child = v)) with
    | some q => q.parents
    | none => [] := rfl
  rw [this, relearn_find]
  by_cases hv : v ∈ f.vars
  · rw [if_pos hv]; rfl
  · rw [if_neg hv]
    unfold NetFile.givens
    have : f.pots.find? (fun q => decide (q.child = v)) = none := by
      rw [List.find?_eq_none]
      intro q hq
      simp only [decide_eq_true_eq]
      rintro rfl; exact hv (hf.child q hq)
    rw [this]

theorem relearn_family {f : NetFile K} (count : Nat → List Nat → K) (v : Nat) : (f.relearn count).family (f.learnedTable count v) = famOrder f v := rfl

theorem relearn_valid {f : NetFile K} (hf : f.Valid) {count : Nat → List Nat → K} (h : ∀ v c, 0 ≤ count v c) : (f.relearn count).Valid := by
  have hnd : f.vars.Nodup := hf.sorted.imp ne_of_lt
  have hmem : ∀ q ∈ (f.relearn count).pots, ∃ v ∈ f.vars, q = f.learnedTable count v := by
    intro q hq
    obtain ⟨v, hv, rfl⟩ := List.mem_map.mp (show q ∈ f.vars.map (f.learnedTable count) from hq)
    exact ⟨v, hv, rfl⟩
  refine ⟨⟨hf.sorted, hf.ids, hf.states, ?_, ?_, ?_, ?_, ?_⟩, ?_⟩
  · obtain ⟨q, hq⟩ := List.exists_mem_of_ne_nil _ hf.tables
    intro he
    have : f.vars = [] := by simpa [NetFile.relearn] using he
    have h1 := hf.child q hq
    rw [this] at h1; cases h1
  · intro q hq
    obtain ⟨v, hv, rfl⟩ := hmem q hq
    exact hv
  · intro q hq
    obtain ⟨v, hv, rfl⟩ := hmem q hq
    exact givens_spec hf v
  · show ((f.vars.map (f.learnedTable count)).map (fun q => q.child)).Nodup
    rw [List.map_map]
    have : (fun q : Parsed K => q.child) ∘ f.learnedTable count = id := rfl
    rw [this, List.map_id]
    exact hnd
  · intro q hq
    obtain ⟨v, hv, rfl⟩ := hmem q hq
    have := learned_on hf count v
    exact ⟨this.card_eq, this.wf.1⟩
  · intro q hq
    obtain ⟨v, hv, rfl⟩ := hmem q hq
    intro a ha
    obtain ⟨c, _, rfl⟩ := List.mem_map.mp ha
    exact estimate_nonneg (h v) _

theorem relearn_parent {f : NetFile K} (hf : f.Valid) (count : Nat → List Nat → K) (v : Nat) :
    (∃ q ∈ (f.relearn count).pots, v ∈ q.parents) ↔ ∃ q ∈ f.pots, v ∈ q.parents := by
  constructor
  · rintro ⟨q, hq, h⟩
    obtain ⟨u, hu, rfl⟩ := List.mem_map.mp (show q ∈ f.vars.map (f.learnedTable count) from hq)
    have h' : v ∈ f.givens u := h
    rw [givens_eq, mem_parentsOf hf] at h'
    obtain ⟨q, h1, _, h2⟩ := h'
    exact ⟨q, h1, h2⟩
  · rintro ⟨q, hq, h⟩
    refine ⟨f.learnedTable count q.child, List.mem_map.mpr ⟨q.child, hf.child q hq, rfl⟩, ?_⟩
    show v ∈ f.givens q.child
    rw [givens_child hf hq]; exact h

theorem relearn_temporal {f : NetFile K} (hf : f.Valid) (count : Nat → List Nat → K) (h : f.Temporal) : (f.relearn count).Temporal :=
  ⟨fun v hv u hu => (relearn_parent hf count v).mpr (h.used v hv u hu), h.states, h.distinct⟩

theorem relearn_roots {f : NetFile K} (hf : f.Valid) (count : Nat → List Nat → K) : (f.relearn count).net.roots = f.net.roots := by
  show (f.vars.filter _) = f.vars.filter _
  apply List.filter_congr
  intro v hv
  rw [Bool.eq_iff_iff, decide_eq_true_eq, decide_eq_true_eq]
  constructor
  · intro h q hq e
    have := h (f.learnedTable count v) (List.mem_map.mpr ⟨v, hv, rfl⟩) rfl
    have h' : f.givens v = [] := this
    rw [← givens_child hf hq, e]; exact h'
  · intro h q hq e
    obtain ⟨u, hu, rfl⟩ := List.mem_map.mp (show q ∈ f.vars.map (f.learnedTable count) from hq)
    have e' : u = v := e
    subst e'
    show f.givens u = []
    rw [givens_eq, parentsOf_nil hf]; exact h

theorem mem_roots {f : NetFile K} (hf : f.Valid) {v : Nat} : v ∈ f.net.roots ↔ v ∈ f.vars ∧ f.givens v = [] := by
  show v ∈ f.vars.filter _ ↔ _
  rw [List.mem_filter, decide_eq_true_eq, givens_eq, parentsOf_nil hf]

theorem relearn_oldOut {f : NetFile K} (hf : f.Valid) (count : Nat → List Nat → K) : (f.relearn count).net.oldOut = f.net.oldOut := by
  funext v
  show decide _ = decide _
  rw [Bool.eq_iff_iff, decide_eq_true_eq, decide_eq_true_eq, relearn_parent hf]
  rfl

/-- the product of the new tables -/
theorem relearn_tables {f : NetFile K} (hf : f.Valid) (count : Nat → List Nat → K) (x : Asg) :
    (f.relearn count).net.tables (wrap f.card x) = ((f.vars.filter (fun v => decide (f.givens v ≠ []))).map
      (fun v => estimate (f.card v) (count v) (states f.card (v :: f.givens v) x))).prod := by
  show (((f.vars.map (f.learnedTable count)).filter (fun q => decide (q.parents ≠ []))).map (fun q => (f.relearn count).entry q (wrap f.card x))).prod = _
  rw [List.filter_map, List.map_map]
  congr 1
  apply List.map_congr_left
  intro v hv
  exact learned_sem hf count (List.mem_filter.mp hv).1 x

theorem relearn_prior {f : NetFile K} (hf : f.Valid) (count : Nat → List Nat → K) {v : Nat} (hv : v ∈ f.vars) (hp : f.givens v = []) :
    (f.relearn count).net.prior v = (List.range (f.card v)).map (fun i => estimate (f.card v) (count v) [i]) := by
  have hnp : (f.relearn count).net.prior v = (f.learnedTable count v).table.data := by
    show (match (f.relearn count).pots.find? (fun q => decide (q.child = v)) with
      | some q => q.table.data
      | none => List.replicate (f.card v) 0) = _
    rw [relearn_find, if_pos hv]
  have hnd : f.vars.Nodup := hf.sorted.imp ne_of_lt
  have hfo : famOrder f v = [v] := by
    have h1 : ∀ u ∈ famOrder f v, u = v := by
      intro u hu
      have := (mem_famOrder hf hv).mp hu
      rw [hp] at this
      simpa using this
    have h2 : v ∈ famOrder f v := (mem_famOrder hf hv).mpr (List.mem_cons_self ..)
    have h3 : (famOrder f v).Nodup := hnd.filter _
    match hl : famOrder f v with
    | [] => rw [hl] at h2; cases h2
    | [a] => rw [hl] at h1; rw [h1 a (by simp)]
    | a :: b :: l =>
      rw [hl] at h1 h3
      have ea := h1 a (by simp)
      have eb := h1 b (by simp)
      rw [ea, eb] at h3
      simp at h3
  rw [hnp]
  unfold NetFile.learnedTable
  show (tuples ((famOrder f v).map f.card)).map _ = _
  have hpos : Positive [f.card v] := by
    intro c hc
    rw [List.mem_singleton] at hc
    rw [hc]; exact hf.states v hv
  rw [hfo]
  show (tuples [f.card v]).map (fun idx => estimate (f.card v) (count v) (f.cell v (fun u => idx.getD ((famOrder f v).idxOf u) 0))) = _
  rw [tuples_eq hpos, List.map_map, List.prod_singleton]
  apply List.map_congr_left
  intro i hi
  have hd : digits [f.card v] i = [i] := by simp [digits, Nat.mod_eq_of_lt (List.mem_range.mp hi)]
  simp only [Function.comp, hd]
  unfold NetFile.cell
  rw [hfo, hp]
  simp

theorem repd_fresh {f : NetFile K} (hf : f.Valid) (x : Asg) : repd f.net (World.fresh f.net) x = f.net.tables (wrap f.net.card x) := by
  unfold repd jointWeight World.fresh
  have h1 : (f.net.roots.map (fun _ => (1 : K))).prod = 1 := by simp
  have h2 : (f.net.vars.map (fun v => (List.replicate (f.net.card v) (1 : K)).getD (wrap f.net.card x v) 0)).prod = 1 := by
    apply List.prod_eq_one
    intro a ha
    obtain ⟨v, hv, rfl⟩ := List.mem_map.mp ha
    have : wrap f.net.card x v < f.net.card v := Nat.mod_lt _ (hf.states v hv)
    rw [List.getD_eq_getElem _ _ (by simpa using this)]
    simp
  simp only [Bool.false_eq_true, if_false]
  rw [h1, h2, mul_one, mul_one]

/-! ### normalising the counts -/

theorem TableOn.ofFor {card : Nat → Nat} {vs : List Nat} {p : Potential K} (h : TableFor card vs p) : TableOn card vs p := by
  refine ⟨⟨h.2.1, ?_⟩, h.1⟩
  rw [h.1]
  intro c hc
  obtain ⟨u, hu, rfl⟩ := List.mem_map.mp hc
  exact h.2.2 u hu

theorem TableOn.for {card : Nat → Nat} {vs : List Nat} {p : Potential K} (h : TableOn card vs p) : TableFor card vs p :=
  ⟨h.card_eq, h.wf.1, h.pos⟩

theorem idxOf_at {l : List Nat} (hn : l.Nodup) {i v : Nat} (h : l[i]? = some v) : l.idxOf v = i := by
  obtain ⟨hi, rfl⟩ := List.getElem?_eq_some_iff.mp h
  exact hn.idxOf_getElem i hi

theorem countsIn_at {f : NetFile K} (hf : f.Valid) {params : List (Potential K)} {i v : Nat} {p : Potential K} (hv : f.vars[i]? = some v)
    (hp : params[i]? = some p) : countsIn f params v = p.at' := by
  funext c
  unfold countsIn
  rw [idxOf_at (hf.sorted.imp ne_of_lt) hv, hp]

theorem countsIn_nonneg {f : NetFile K} {params : List (Potential K)} (h : CountTables f params) (v : Nat) (cell : List Nat) :
    0 ≤ countsIn f params v cell := by
  unfold countsIn
  split
  · rename_i p hp
    unfold Potential.at' cellOf
    rw [List.getD_eq_getElem?_getD]
    cases e : p.data[position p.card cell]? with
    | none => simp
    | some a => exact h.nonneg p (List.mem_of_getElem? hp) a (List.mem_of_getElem? e)
  · exact le_rfl

theorem normaliseParameters_spec {f : NetFile K} (hf : f.Valid) {params : List (Potential K)} (h : CountTables f params) :
    ∃ params', normaliseParameters f.vars.length params = ok params' ∧ CountTables f params' ∧
      ∀ (i v : Nat) (q : Potential K), f.vars[i]? = some v → params'[i]? = some q →
        ∀ cell, InRange ((v :: f.givens v).map f.card) cell → q.at' cell = estimate (f.card v) (countsIn f params v) cell := by
  have hat : ∀ (i : Nat) (p : Potential K), params[i]? = some p → ∃ v, f.vars[i]? = some v ∧ TableOn f.card (v :: f.givens v) p := by
    intro i p hp
    have hi : i < f.vars.length := by rw [← h.length]; exact (List.getElem?_eq_some_iff.mp hp).1
    exact ⟨_, List.getElem?_eq_getElem hi, TableOn.ofFor (h.shape i _ p (List.getElem?_eq_getElem hi) hp)⟩
  obtain ⟨ps, e1, e2, e3⟩ := loop_inv (n := f.vars.length) (s := params) (f := fun i (ps : List (Potential K)) => do
      let p ← rd ps i
      let p ← p.normaliseCpd
      wr ps i p)
    (fun i ps => ps.length = params.length ∧
      ∀ (j : Nat) (p : Potential K), params[j]? = some p → ∃ q, ps[j]? = some q ∧ if j < i then p.normaliseCpd = ok q else q = p)
    ⟨rfl, fun j p hp => ⟨p, hp, by simp⟩⟩ (by
      rintro i hi ps ⟨hl, hps⟩
      have hi' : i < params.length := by rw [h.length]; exact hi
      obtain ⟨p, hp⟩ : ∃ p, params[i]? = some p := ⟨_, List.getElem?_eq_getElem hi'⟩
      obtain ⟨q, h1, h2⟩ := hps i p hp
      rw [if_neg (by omega)] at h2
      subst h2
      obtain ⟨v, hv, hon⟩ := hat i q hp
      obtain ⟨r, r1, r2, r3, r4⟩ := Potential.normaliseCpd_at' hon.wf hon.card_eq
      refine ⟨ps.set i r, ?_, by simpa using hl, ?_⟩
      · rw [rd_eq_ok.mpr h1, ok_bind, r1, ok_bind, wr_lt (by rw [hl]; exact hi')]
      · intro j p' hp'
        obtain ⟨q', g1, g2⟩ := hps j p' hp'
        by_cases e : i = j
        · subst e
          rw [hp] at hp'
          simp only [Option.some.injEq] at hp'
          subst hp'
          refine ⟨r, ?_, ?_⟩
          · rw [List.getElem?_set_self (by rw [hl]; exact hi')]
          · rw [if_pos (by omega)]; exact r1
        · refine ⟨q', by rw [List.getElem?_set_ne e]; exact g1, ?_⟩
          by_cases hj : j < i
          · rw [if_pos hj] at g2; rw [if_pos (by omega)]; exact g2
          · rw [if_neg hj] at g2; rw [if_neg (by omega)]; exact g2)
  have hback : ∀ (i : Nat) (q : Potential K), ps[i]? = some q → ∃ p, params[i]? = some p ∧ p.normaliseCpd = ok q := by
    intro i q hq
    have hi : i < params.length := by rw [← e2]; exact (List.getElem?_eq_some_iff.mp hq).1
    obtain ⟨q', h1, h2⟩ := e3 i _ (List.getElem?_eq_getElem hi)
    rw [if_pos (by rw [← h.length]; exact hi)] at h2
    rw [h1] at hq
    simp only [Option.some.injEq] at hq
    subst hq
    exact ⟨_, List.getElem?_eq_getElem hi, h2⟩
  refine ⟨ps, e1, ⟨by rw [e2]; exact h.length, ?_, ?_⟩, ?_⟩
  · intro i v q hv hq
    obtain ⟨p, hp, hn⟩ := hback i q hq
    have hon := TableOn.ofFor (h.shape i v p hv hp)
    obtain ⟨r, r1, r2, r3, r4⟩ := Potential.normaliseCpd_at' hon.wf hon.card_eq
    rw [hn] at r1
    cases r1
    exact TableOn.for ⟨r2, r3.trans hon.card_eq⟩
  · intro q hq
    obtain ⟨i, hi⟩ := List.mem_iff_getElem?.mp hq
    obtain ⟨p, hp, hn⟩ := hback i q hi
    obtain ⟨v, hv, hon⟩ := hat i p hp
    exact normaliseCpd_nonneg hon.wf hon.card_eq (h.nonneg p (List.mem_of_getElem? hp)) hn
  · intro i v q hv hq cell hcell
    obtain ⟨p, hp, hn⟩ := hback i q hq
    have hon := TableOn.ofFor (h.shape i v p hv hp)
    obtain ⟨r, r1, r2, r3, r4⟩ := Potential.normaliseCpd_at' hon.wf hon.card_eq
    rw [hn] at r1
    cases r1
    cases hcell with
    | @cons k c t cs hk ht =>
      rw [r4 k t hk ht]
      have hc := countsIn_at hf hv hp
      unfold estimate
      rw [hc]
      simp only [List.tail_cons]
      split
      · rename_i h0
        rw [h0, div_zero]
        have := (Finset.sum_eq_zero_iff_of_nonneg (fun j _ => by rw [← hc]; exact countsIn_nonneg h v (j :: t))).mp h0 k (Finset.mem_range.mpr hk)
        exact this
      · rfl

/-! ### forgetting the tables -/

/-- the network without its tables -/
def bare (net : Net K) : Net K := { net with tables := fun _ => 1 }

theorem findClique_sub {t : JTree K} {vs : List Nat} {c : Nat} (h : t.findClique vs = ok (some c)) : ∀ u ∈ vs, u ∈ t.varsOf c := by
  have e : t.findClique vs = ok ((List.range' 0 t.cliques.length).find? (fun i => decide (∀ u ∈ vs, u ∈ t.varsOf i))) := by
    unfold JTree.findClique
    refine firstIdx_eq 0 _ ?_
    intro j _ hj
    have hj' : j < t.cliques.length := by omega
    rw [rd_lt hj', ok_bind, countCommon_eq, ok_bind]
    congr 1
    rw [JTree.varsOf_eq (List.getElem?_eq_getElem hj'), Bool.eq_iff_iff, beq_iff_eq, List.length_filter_eq_length_iff]
    simp
  rw [h] at e
  simp only [ok.injEq] at e
  simpa using List.find?_some e.symm

theorem Frame.ofSkel {t t' : JTree K} (h : t'.skel = t.skel) : t'.cliques.map (fun c => (c.vars, c.sepsets)) = t.cliques.map (fun c => (c.vars, c.sepsets)) := by
  have := congrArg (fun l => List.map (fun (a : List Nat × Potential K × List Nat) => (a.1, a.2.2)) l.1) h
  simpa [JTree.skel, List.map_map, Function.comp_def] using this

theorem totalReset_spec {net : Net K} {m : Model K} {w : World K} {T : Asg → K} (h : Model.Carries net m w T) :
    ∃ m', m.totalReset = ok m' ∧ Model.Holds (bare net) m' (World.fresh net) ∧ m'.tree.cliques.length = m.tree.cliques.length ∧
      (∀ c, m'.tree.varsOf c = m.tree.varsOf c) ∧ (∀ v, (m'.var v).parents = (m.var v).parents) ∧
      (∀ v, (m'.var v).outgoing = (m.var v).outgoing) ∧
      (∀ c x, m'.tree.phi net.card c x = 1) ∧ (∀ c x, m'.tree.origOf net.card c x = 1) ∧ ∀ s x, m'.tree.psi net.card s x = 1 := by
  have hs := h.sound
  obtain ⟨t0, ht0⟩ : ∃ t0 : JTree K, t0 = { m.tree with cliques := m.tree.cliques.map (fun cl => { cl with orig := cl.orig.uniform 1 }) } := ⟨_, rfl⟩
  have hloop : loop m.tree.cliques.length (fun i (cs : List (Clique K)) => do
      let cl ← rd cs i
      wr cs i { cl with orig := cl.orig.uniform 1 }) m.tree.cliques = ok t0.cliques := by
    rw [loop_mapIdx_all (g := fun _ cl => { cl with orig := cl.orig.uniform 1 }) (by
      intro i hi t ht _
      rw [rd_lt ht, ok_bind, wr_lt ht])]
    rw [ht0]
    simp only [ok.injEq]
    apply List.ext_getElem?
    intro i
    simp
  have hat : ∀ c : Nat, t0.cliques[c]? = (m.tree.cliques[c]?).map (fun (cl : Clique K) => { cl with orig := cl.orig.uniform 1 }) := by
    intro c; rw [ht0]; simp
  have hfr : m.tree.Frame t0 := by
    refine ⟨by rw [ht0], ?_⟩
    rw [ht0]
    simp [List.map_map, Function.comp_def]
  have hphi : ∀ c x, t0.phi net.card c x = m.tree.phi net.card c x := by
    intro c x
    unfold JTree.phi
    rw [hat]
    cases m.tree.cliques[c]? <;> rfl
  have hpsi : ∀ c x, t0.psi net.card c x = m.tree.psi net.card c x := by
    intro c x
    unfold JTree.psi
    rw [hfr.sep]
  have horig : ∀ c x, t0.origOf net.card c x = 1 := by
    intro c x
    unfold JTree.origOf
    rw [hat]
    cases e : m.tree.cliques[c]? with
    | none => rfl
    | some cl =>
      obtain ⟨n1, n2, n3⟩ := hs.typed.clq c cl e
      simp only [Option.map_some]
      rw [uniform_ones n3]
      exact sem_ones n3.pos x
  obtain ⟨m0, hm0⟩ : ∃ m0 : Model K, m0 = { m with tree := t0 } := ⟨_, rfl⟩
  have hm0t : m0.tree = t0 := by rw [hm0]
  have hm0v : m0.var = m.var := by rw [hm0]
  have hsound : Model.Sound (bare net) m0 := by
    obtain ⟨L, hL⟩ := hs.good
    refine ⟨⟨L, ?_⟩, ⟨?_, ?_⟩, ⟨?_, ?_⟩, ?_, ?_, ?_, ?_, hs.nodup, hs.rnodup, hs.rsub, ?_, ?_, ?_, ?_, ?_⟩
    · rw [hm0t]; exact hL.frame hfr.shape (by rw [hfr.sep]) hfr.vars
    · intro c cl hcl
      rw [hm0t, hat, Option.map_eq_some_iff] at hcl
      obtain ⟨cl0, h1, rfl⟩ := hcl
      obtain ⟨n1, n2, n3⟩ := hs.typed.clq c cl0 h1
      refine ⟨n1, n2, ?_⟩
      show TableOn net.card cl0.vars (cl0.orig.uniform 1)
      rw [uniform_ones n3]
      exact ones_on n3.pos
    · intro s sp hsp
      rw [hm0t, hfr.vars, hfr.vars]
      rw [hm0t, hfr.sep] at hsp
      exact hs.typed.sep s sp hsp
    · intro c x; rw [hm0t]; show 0 ≤ t0.phi net.card c x; rw [hphi]; exact hs.nonneg.φ c x
    · intro c x; rw [hm0t]; show 0 ≤ t0.psi net.card c x; rw [hpsi]; exact hs.nonneg.ψ c x
    · intro c x; rw [hm0t]; show 0 ≤ t0.origOf net.card c x; rw [horig]; exact zero_le_one
    · intro v; rw [hm0v]; exact hs.card v
    · rw [hm0]; exact hs.vars
    · rw [hm0]; exact hs.roots
    · intro v
      rw [hm0t, hfr.len]
      simp only [hfr.vars]
      exact hs.cover v
    · intro x
      rw [hm0t]
      show ∏ c ∈ Finset.range t0.cliques.length, t0.origOf net.card c x = 1
      simp [horig]
    · intro v hv; rw [hm0v]; exact hs.prior v hv
    · intro v; rw [hm0v]; exact hs.old v
    · intro v hv
      rw [hm0t, hm0v, hfr.find, hfr.len]
      simp only [hfr.vars]
      exact hs.fam v hv
  obtain ⟨r1, r2, r3⟩ := Model.reset_spec hsound (by
    intro v hv
    rw [hm0v, (h.told.lik v hv).1]
    exact (h.told.lik v hv).2.1)
  have htree : (Model.resetState (bare net) m0).tree = t0.retracted net.card := by unfold Model.resetState; rw [hm0t]; rfl
  refine ⟨_, ?_, r3, ?_, ?_, ?_, ?_, ?_, ?_, ?_⟩
  · unfold Model.totalReset
    rw [hloop, ok_bind]
    have : ({ m.tree with cliques := t0.cliques } : JTree K) = t0 := by rw [ht0]
    rw [this, ← hm0]
    exact r1
  · rw [JTree.skel_len r2.skel, hm0t, hfr.len]
  · intro c; rw [JTree.skel_vars r2.skel, hm0t, hfr.vars]
  · intro v; rw [r2.parents, hm0v]
  · intro v; rw [r2.out, hm0v]
  · intro c x; rw [htree, Model.retracted_phi]; exact horig c x
  · intro c x; rw [Model.origOf_skel r2.skel, hm0t]; exact horig c x
  · intro s x; rw [htree]; exact Model.retracted_psi (by rw [← hm0t]; exact hsound.typed) s x

/-! ### entering the new tables -/

theorem total_one {card : Nat → Nat} {v : Nat} {p : Potential K} (hp : TableOn card [v] p) {r : List K} (hr : r.length = card v) :
    Potential.totalMarginalise p r 0 = ok (0, p.data) := by
  have hc : p.card = [card v] := hp.card_eq
  have hpos : Positive [card v] := by rw [← hc]; exact hp.wf.2
  have hl : p.data.length = card v := by rw [hp.wf.1, hc]; simp
  have h0 : p.card[0]'(by rw [hc]; simp) = card v := by simp [hc]
  have := Potential.totalMarginalise_eq hp.wf (dest := r) (v := 0) (by rw [hc]; simp) (by rw [h0, hr])
  rw [Int.ofNat_zero] at this
  rw [this]
  congr 2
  apply List.ext_getElem
  · rw [List.length_mapIdx, hr, hl]
  intro j h1 h2
  have h1' : j < card v := by rw [List.length_mapIdx, hr] at h1; exact h1
  rw [List.getElem_mapIdx, if_pos (by rw [h0]; exact h1'), hc, sumTuples_eq hpos]
  clear h1
  have h1 := h1'
  rw [List.prod_singleton, Finset.sum_eq_single j]
  · have hd : digits [card v] j = [j] := by simp [digits, Nat.mod_eq_of_lt h1]
    rw [hd]
    simp only [List.getD_cons_zero, if_true]
    unfold Potential.at' cellOf
    rw [hc]
    simp [position, h2]
  · intro i hi hij
    have hd : digits [card v] i = [i] := by simp [digits, Nat.mod_eq_of_lt (Finset.mem_range.mp hi)]
    rw [hd]
    simp [hij]
  · intro hj; exact absurd (Finset.mem_range.mpr h1) hj

/-- is a variable with its parents entered into this clique? -/
def livesIn (t : JTree K) (parents : List Nat) (v c : Nat) : Bool :=
  match t.findClique (parents ++ [v]) with
  | ok (some d) => d == c
  | _ => false

/-- after the tables of some variables have been entered -/
structure Install (f : NetFile K) (m0 : Model K) (tab : Nat → Potential K) (done : List Nat) (m : Model K) : Prop where
  frame : m0.tree.Frame m.tree
  typed : m.tree.Typed f.card
  same : ∀ c x, m.tree.phi f.card c x = m.tree.origOf f.card c x
  nonneg : ∀ c x, 0 ≤ m.tree.origOf f.card c x
  prod : ∀ x, ∏ c ∈ Finset.range m.tree.cliques.length, m.tree.origOf f.card c x =
    ((done.filter (fun v => decide (f.givens v ≠ []))).map (fun v => sem f.card (v :: f.givens v) (tab v) x)).prod
  each : ∀ c x, m.tree.origOf f.card c x =
    ((done.filter (fun v => decide (f.givens v ≠ []) && livesIn m0.tree (f.givens v) v c)).map (fun v => sem f.card (v :: f.givens v) (tab v) x)).prod
  card : ∀ v, (m.var v).card = (m0.var v).card
  parents : ∀ v, (m.var v).parents = f.givens v
  lik : ∀ v, (m.var v).likelihood = (m0.var v).likelihood
  entered : ∀ v, (m.var v).priorEntered = (m0.var v).priorEntered
  old : ∀ v, (m.var v).oldOutgoing = (m0.var v).oldOutgoing
  out : ∀ v, (m.var v).outgoing = (m0.var v).outgoing
  prior : ∀ v ∈ f.vars, f.givens v = [] → ∃ r, (m.var v).prior = some r ∧ r.length = f.card v ∧ (v ∈ done → r = (tab v).data)
  fam : ∀ v ∈ f.vars, ∃ c, m.tree.findClique ((m.var v).parents ++ [v]) = ok (some c) ∧ c < m.tree.cliques.length ∧
    v ∈ m.tree.varsOf c ∧ ((m.var v).familyClique = none ∨ (m.var v).familyClique = some c)
  varList : m.varList = f.vars
  independent : m.independent = m0.independent

theorem enterParameter_spec {f : NetFile K} (hf : f.Valid) {m0 m : Model K} {tab : Nat → Potential K} {done : List Nat} (h : Install f m0 tab done m)
    {v : Nat} (hv : v ∈ f.vars) (hnot : v ∉ done) (hon : TableOn f.card (v :: f.givens v) (tab v)) (hnn : ∀ x, 0 ≤ sem f.card (v :: f.givens v) (tab v) x) :
    ∃ m', enterParameter m v (tab v) = ok (0, m') ∧ Install f m0 tab (done ++ [v]) m' := by
  obtain ⟨c, f1, f2, f3, f4⟩ := h.fam v hv
  unfold enterParameter
  rw [h.parents]
  by_cases hp : f.givens v = []
  · rw [if_neg (by rw [hp]; simp)]
    obtain ⟨r, r1, r2, r3⟩ := h.prior v hv hp
    rw [r1]
    have hon' := hon
    rw [hp] at hon'
    simp only
    rw [total_one hon' r2, ok_bind]
    refine ⟨_, rfl, ?_⟩
    have hset : ∀ u, (m.setVar v { m.var v with prior := some (tab v).data }).var u =
        if u = v then { m.var v with prior := some (tab v).data } else m.var u := by
      intro u
      unfold Model.setVar
      simp only
      by_cases e : u = v
      · subst e; simp
      · simp [Function.update_of_ne e, e]
    have htr : (m.setVar v { m.var v with prior := some (tab v).data }).tree = m.tree := rfl
    obtain ⟨m2, hm2⟩ : ∃ m2, m2 = m.setVar v { m.var v with prior := some (tab v).data } := ⟨_, rfl⟩
    have hvl2 : m2.varList = f.vars := by rw [hm2]; exact h.varList
    have hin2 : m2.independent = m0.independent := by rw [hm2]; exact h.independent
    rw [← hm2] at hset htr
    simp only [ok_bind] at *
    show Install f m0 tab (done ++ [v]) (m.setVar v { m.var v with prior := some (tab v).data })
    rw [← hm2]
    have hfil : (done ++ [v]).filter (fun v => decide (f.givens v ≠ [])) = done.filter (fun v => decide (f.givens v ≠ [])) := by
      rw [List.filter_append]; simp [hp]
    have hfil' : ∀ c, (done ++ [v]).filter (fun v => decide (f.givens v ≠ []) && livesIn m0.tree (f.givens v) v c) =
        done.filter (fun v => decide (f.givens v ≠ []) && livesIn m0.tree (f.givens v) v c) := by
      intro c
      rw [List.filter_append]; simp [hp]
    refine ⟨by rw [htr]; exact h.frame, by rw [htr]; exact h.typed, by rw [htr]; exact h.same, by rw [htr]; exact h.nonneg,
      by rw [htr, hfil]; exact h.prod, fun c x => by rw [htr, hfil']; exact h.each c x, ?_, ?_, ?_, ?_, ?_, ?_, ?_, ?_, hvl2, hin2⟩
    · intro v; rw [hset, ← h.card]; split <;> simp_all
    · intro v; rw [hset, ← h.parents]; split <;> simp_all
    · intro v; rw [hset, ← h.lik]; split <;> simp_all
    · intro v; rw [hset, ← h.entered]; split <;> simp_all
    · intro v; rw [hset, ← h.old]; split <;> simp_all
    · intro v; rw [hset, ← h.out]; split <;> simp_all
    · intro u hu hpu
      rw [hset]
      by_cases e : u = v
      · subst e
        rw [if_pos rfl]
        refine ⟨_, rfl, ?_, fun _ => rfl⟩
        rw [hon'.wf.1, hon'.card_eq]; simp
      · rw [if_neg e]
        obtain ⟨r, g1, g2, g3⟩ := h.prior u hu hpu
        exact ⟨r, g1, g2, fun hm => g3 (by simpa [e] using hm)⟩
    · intro u hu
      obtain ⟨d, g1, g2, g3, g4⟩ := h.fam u hu
      have e1 : (m2.var u).parents = (m.var u).parents := by rw [hset]; split <;> simp_all
      have e2 : (m2.var u).familyClique = (m.var u).familyClique := by rw [hset]; split <;> simp_all
      rw [e1, e2, htr]
      exact ⟨d, g1, g2, g3, g4⟩
  · rw [if_pos (List.length_pos_iff.mpr hp)]
    have hff : m.findFamily v = ok (some c, m.memo v c) := by
      unfold Model.findFamily
      rcases f4 with e | e
      · rw [e, f1, ok_bind]; rfl
      · rw [e]
        simp only
        congr 2
        unfold Model.memo Model.setVar
        have : ({ m.var v with familyClique := some c } : VarRec K) = m.var v := by rw [← e]
        rw [this, Function.update_eq_self]
    have hsame := Model.memo_same m v c
    have hmv := Model.memo_var m v c
    obtain ⟨m1, hm1⟩ : ∃ m1, m1 = m.memo v c := ⟨_, rfl⟩
    have htree : m1.tree = m.tree := by rw [hm1]; rfl
    have hvl : m1.varList = f.vars := by rw [hm1]; exact hsame.varList.trans h.varList
    have hin : m1.independent = m0.independent := by rw [hm1]; exact hsame.independent.trans h.independent
    rw [← hm1] at hff hsame hmv
    obtain ⟨cl, hcl⟩ : ∃ cl, m.tree.cliques[c]? = some cl := ⟨_, List.getElem?_eq_getElem f2⟩
    have hsub := findClique_sub f1
    rw [h.parents, JTree.varsOf_eq hcl] at hsub
    obtain ⟨n1, n2, n3⟩ := h.typed.clq c cl hcl
    have hsub' : v :: f.givens v ⊆ cl.vars := by
      intro u hu
      rcases List.mem_cons.mp hu with rfl | hu
      · exact hsub _ (by simp)
      · exact hsub _ (by simp [hu])
    have hmap := familyMapping_eq n1 (givens_spec hf v).1 (hsub' (List.mem_cons_self ..)) (fun u hu => hsub' (List.mem_cons_of_mem _ hu))
    obtain ⟨r, r1, r2, r3⟩ := init_sem n2 hon hsub' (by simp)
    obtain ⟨o, o1, o2, o3⟩ := init_sem n3 hon hsub' (by simp)
    have hfr : m.tree.Frame { cliques := m.tree.cliques.set c { cl with p := r, orig := o }, sepsets := m.tree.sepsets } :=
      JTree.Frame.set hcl rfl rfl
    obtain ⟨t', ht'⟩ : ∃ t' : JTree K, t' = { cliques := m.tree.cliques.set c { cl with p := r, orig := o }, sepsets := m.tree.sepsets } := ⟨_, rfl⟩
    have hrun : (do
        let (c, m) ← m.findFamily v
        match c with
        | none => ub
        | some c => do
          let cl ← rd m.tree.cliques c
          let mp ← familyMapping cl.vars v (m.var v).parents
          let (j, q) ← Potential.init (tab v) cl.p (some mp)
          let (k, o) ← Potential.init (tab v) cl.orig (some mp)
          let cs ← wr m.tree.cliques c { cl with p := q, orig := o }
          ok (if j ≠ 0 ∨ k ≠ 0 then NIP_ERROR_GENERAL else 0, { m with tree := { m.tree with cliques := cs } })) =
        (ok (0, { m1 with tree := t' }) : Res (Nat × Model K)) := by
      rw [hff, ok_bind]
      simp only [htree]
      rw [rd_eq_ok.mpr hcl, ok_bind, hsame.parents, h.parents, hmap, ok_bind, r1, ok_bind, o1, ok_bind, wr_lt f2, ok_bind]
      simp [ht']
    refine ⟨{ m1 with tree := t' }, hrun, ?_⟩
    rw [← ht'] at hfr
    have hphi : ∀ d x, t'.phi f.card d x = if d = c then m.tree.phi f.card d x * sem f.card (v :: f.givens v) (tab v) x else m.tree.phi f.card d x := by
      intro d x
      rw [ht']
      unfold JTree.phi
      simp only [List.getElem?_set]
      by_cases e : c = d
      · subst e; rw [hcl]; simp [f2, r3]
      · rw [if_neg e, if_neg (Ne.symm e)]
    have horig : ∀ d x, t'.origOf f.card d x = if d = c then m.tree.origOf f.card d x * sem f.card (v :: f.givens v) (tab v) x else m.tree.origOf f.card d x := by
      intro d x
      rw [ht']
      unfold JTree.origOf
      simp only [List.getElem?_set]
      by_cases e : c = d
      · subst e; rw [hcl]; simp [f2, o3]
      · rw [if_neg e, if_neg (Ne.symm e)]
    have hlives : ∀ d, livesIn m0.tree (f.givens v) v d = decide (d = c) := by
      intro d
      unfold livesIn
      rw [← h.frame.find, ← h.parents, f1]
      simp only
      by_cases e : d = c
      · subst e; simp
      · simp [e, Ne.symm e]
    refine ⟨h.frame.trans hfr, ⟨?_, ?_⟩, ?_, ?_, ?_, ?_, ?_, ?_, ?_, ?_, ?_, ?_, ?_, ?_, hvl, hin⟩
    · intro d dl hd
      rw [ht'] at hd
      simp only [List.getElem?_set] at hd
      split at hd
      · simp only [Option.some.injEq] at hd
        rw [← hd]; exact ⟨n1, r2, o2⟩
      · exact h.typed.clq d dl hd
    · intro s sp hs
      show _ ∧ _ ∧ _ ∧ sp.vars ⊆ t'.varsOf _ ∧ sp.vars ⊆ t'.varsOf _
      rw [hfr.vars, hfr.vars]
      have hs' : t'.sepsets[s]? = some sp := hs
      rw [hfr.sep] at hs'
      exact h.typed.sep s sp hs'
    · intro d x; show t'.phi f.card d x = t'.origOf f.card d x; rw [hphi, horig, h.same]
    · intro d x
      show 0 ≤ t'.origOf f.card d x
      rw [horig]; split
      · exact mul_nonneg (h.nonneg d x) (hnn x)
      · exact h.nonneg d x
    · intro x
      show ∏ d ∈ Finset.range t'.cliques.length, t'.origOf f.card d x = _
      rw [List.filter_append, List.map_append, List.prod_append, ← h.prod, hfr.len]
      rw [prod_at (b := c) f2 (fun d => m.tree.origOf f.card d x) (fun d => t'.origOf f.card d x)
        (fun d hd => by rw [horig, if_neg hd]) (u := sem f.card (v :: f.givens v) (tab v) x) (by rw [horig, if_pos rfl])]
      simp [hp]
    · intro d x
      show t'.origOf f.card d x = _
      rw [horig, List.filter_append, List.map_append, List.prod_append, ← h.each]
      by_cases e : d = c
      · subst e; simp [hp, hlives]
      · simp [hp, hlives, e]
    · intro u; exact (hsame.card u).trans (h.card u)
    · intro u; exact (hsame.parents u).trans (h.parents u)
    · intro u; exact (hmv u).1.trans (h.lik u)
    · intro u; exact (hmv u).2.1.trans (h.entered u)
    · intro u; exact (hsame.old u).trans (h.old u)
    · intro u; exact (hsame.out u).trans (h.out u)
    · intro u hu hpu
      obtain ⟨r, g1, g2, g3⟩ := h.prior u hu hpu
      refine ⟨r, (hsame.prior u).trans g1, g2, ?_⟩
      intro hm
      rcases List.mem_append.mp hm with hm | hm
      · exact g3 hm
      · rw [List.mem_singleton] at hm
        subst hm
        exact absurd hpu hp
    · intro u hu
      obtain ⟨d, g1, g2, g3, g4⟩ := h.fam u hu
      show ∃ d, t'.findClique ((m1.var u).parents ++ [u]) = ok (some d) ∧ d < t'.cliques.length ∧ u ∈ t'.varsOf d ∧
        ((m1.var u).familyClique = none ∨ (m1.var u).familyClique = some d)
      rw [hsame.parents]
      refine ⟨d, by rw [hfr.find]; exact g1, by rw [hfr.len]; exact g2, by rw [hfr.vars]; exact g3, ?_⟩
      rw [(hmv u).2.2]
      by_cases e : u = v
      · subst e
        rw [f1] at g1
        simp only [ok.injEq, Option.some.injEq] at g1
        right; simp [g1]
      · simpa [e] using g4

theorem mStep_spec {f : NetFile K} (hf : f.Valid) {m : Model K} {w : World K} {T : Asg → K} (h : Model.Carries f.net m w T) (hpar : ∀ v, (m.var v).parents = f.givens v)
    {params : List (Potential K)} (hc : CountTables f params) :
    ∃ params' m', mStep params m = ok (0, params', m') ∧ CountTables f params' ∧
      (∀ v ∈ f.vars, ∀ cell, InRange ((v :: f.givens v).map f.card) cell →
        countsIn f params' v cell = estimate (f.card v) (countsIn f params v) cell) ∧
      Model.Holds (f.relearn (countsIn f params)).net m' (World.fresh (f.relearn (countsIn f params)).net) ∧
      (∀ v, (m'.var v).parents = f.givens v) ∧ m'.tree.cliques.length = m.tree.cliques.length ∧ (∀ c, m'.tree.varsOf c = m.tree.varsOf c) ∧
      (∀ s x, m'.tree.psi f.card s x = 1) ∧
      ∀ c x, m'.tree.origOf f.card c x = ((f.vars.filter (fun v => decide (f.givens v ≠ []) && livesIn m'.tree (f.givens v) v c)).map (fun v =>
        estimate (f.card v) (countsIn f params v) (states f.card (v :: f.givens v) x))).prod := by
  have hnd : f.vars.Nodup := hf.sorted.imp ne_of_lt
  obtain ⟨ps, a1, a2, a3⟩ := normaliseParameters_spec hf hc
  obtain ⟨m0, b1, b2, b3, b4, b5, b6, b7, b8, b9⟩ := totalReset_spec h
  have hs0 := b2.sound
  have ht0 := b2.told
  obtain ⟨tab, htab⟩ : ∃ tab : Nat → Potential K, tab = fun v => (ps[f.vars.idxOf v]?).getD ⟨[], []⟩ := ⟨_, rfl⟩
  have htabat : ∀ (i v : Nat), f.vars[i]? = some v → ps[i]? = some (tab v) := by
    intro i v hv
    have hi : i < ps.length := by rw [a2.length]; exact (List.getElem?_eq_some_iff.mp hv).1
    rw [htab]
    simp only
    rw [idxOf_at hnd hv, List.getElem?_eq_getElem hi]
    rfl
  have hidx : ∀ v ∈ f.vars, ∃ i, f.vars[i]? = some v := fun v hv => List.mem_iff_getElem?.mp hv
  have hon : ∀ v ∈ f.vars, TableOn f.card (v :: f.givens v) (tab v) := by
    intro v hv
    obtain ⟨i, hi⟩ := hidx v hv
    exact TableOn.ofFor (a2.shape i v _ hi (htabat i v hi))
  have hest : ∀ v ∈ f.vars, ∀ cell, InRange ((v :: f.givens v).map f.card) cell →
      (tab v).at' cell = estimate (f.card v) (countsIn f params v) cell := by
    intro v hv cell hcell
    obtain ⟨i, hi⟩ := hidx v hv
    exact a3 i v _ hi (htabat i v hi) cell hcell
  have hsem : ∀ v ∈ f.vars, ∀ x, sem f.card (v :: f.givens v) (tab v) x =
      estimate (f.card v) (countsIn f params v) (states f.card (v :: f.givens v) x) :=
    fun v hv x => hest v hv _ (states_inRange (hon v hv).pos x)
  have hnn : ∀ v ∈ f.vars, ∀ x, 0 ≤ sem f.card (v :: f.givens v) (tab v) x := by
    intro v hv x
    rw [hsem v hv]
    exact estimate_nonneg (fun c => countsIn_nonneg hc v c) _
  have hstart : Install f m0 tab [] m0 := by
    refine ⟨⟨rfl, rfl⟩, hs0.typed, ?_, hs0.onneg, ?_, ?_, fun _ => rfl, ?_, fun _ => rfl, fun _ => rfl, fun _ => rfl, fun _ => rfl, ?_, hs0.fam, hs0.vars, rfl⟩
    · intro c x
      have h1 := b7 c x
      have h2 := b8 c x
      exact h1.trans h2.symm
    · intro x
      have h2 := fun c => b8 c x
      simp only [List.filter_nil, List.map_nil, List.prod_nil]
      exact Finset.prod_eq_one (fun c _ => h2 c)
    · intro c x
      simp only [List.filter_nil, List.map_nil, List.prod_nil]
      exact b8 c x
    · intro v; rw [b5, hpar]
    · intro v hv hp
      obtain ⟨g1, g2, g3⟩ := hs0.prior v ((mem_roots hf).mpr ⟨hv, hp⟩)
      exact ⟨_, g1, g2, fun h => by cases h⟩
  obtain ⟨⟨e, m'⟩, l1, l2, l3⟩ := loop_inv (n := f.vars.length) (s := ((0 : Nat), m0)) (f := fun i (st : Nat × Model K) =>
      if st.1 ≠ 0 then ok st
      else do
        let v ← rd st.2.varList i
        let p ← rd ps i
        enterParameter st.2 v p)
    (fun i st => st.1 = 0 ∧ Install f m0 tab (f.vars.take i) st.2) ⟨rfl, by simpa using hstart⟩ (by
      rintro i hi ⟨e, m1⟩ ⟨h1, h2⟩
      simp only at h1 h2
      subst h1
      have hvi : f.vars[i]? = some f.vars[i] := List.getElem?_eq_getElem hi
      have hmem : f.vars[i] ∈ f.vars := List.getElem_mem hi
      have hnot : f.vars[i] ∉ f.vars.take i := by
        intro hin
        obtain ⟨j, hj, hej⟩ := List.mem_take_iff_getElem.mp hin
        have := (List.Nodup.getElem_inj_iff hnd).mp hej
        omega
      obtain ⟨m2, g1, g2⟩ := enterParameter_spec hf h2 hmem hnot (hon _ hmem) (hnn _ hmem)
      refine ⟨(0, m2), ?_, rfl, ?_⟩
      · simp only [ne_eq, not_true, if_false]
        rw [h2.varList, rd_lt hi, ok_bind, rd_eq_ok.mpr (htabat i _ hvi), ok_bind]
        exact g1
      · have e : f.vars.take (i + 1) = f.vars.take i ++ [f.vars[i]] := by rw [List.take_add_one, hvi]; rfl
        rw [e]; exact g2)
  simp only at l2 l3
  subst l2
  rw [List.take_length] at l3
  obtain ⟨f', hf'⟩ : ∃ f', f' = f.relearn (countsIn f params) := ⟨_, rfl⟩
  have hval : f'.Valid := by rw [hf']; exact relearn_valid hf (fun v c => countsIn_nonneg hc v c)
  have hroots : f'.net.roots = f.net.roots := by rw [hf']; exact relearn_roots hf _
  have horigs : ∀ x, ∏ c ∈ Finset.range m'.tree.cliques.length, m'.tree.origOf f.card c x = f'.net.tables (wrap f.card x) := by
    intro x
    rw [l3.prod, hf', relearn_tables hf]
    congr 1
    apply List.map_congr_left
    intro v hv
    exact hsem v (List.mem_filter.mp hv).1 x
  have hpsi : ∀ s x, m'.tree.psi f.card s x = 1 := by
    intro s x
    unfold JTree.psi
    rw [l3.frame.sep]
    exact b9 s x
  have hprior : ∀ v ∈ f'.net.roots, (m'.var v).prior = some (f'.net.prior v) ∧ (f'.net.prior v).length = f'.net.card v ∧ ∀ a ∈ f'.net.prior v, 0 ≤ a := by
    intro v hv
    rw [hroots, mem_roots hf] at hv
    obtain ⟨hv, hp⟩ := hv
    obtain ⟨r, g1, g2, g3⟩ := l3.prior v hv hp
    have hnp : f'.net.prior v = (List.range (f.card v)).map (fun i => estimate (f.card v) (countsIn f params v) [i]) := by
      rw [hf']; exact relearn_prior hf _ hv hp
    have hvon := hon v hv
    rw [hp] at hvon
    have heq : (tab v).data = f'.net.prior v := by
      rw [hnp]
      have hl : (tab v).data.length = f.card v := by rw [hvon.wf.1, hvon.card_eq]; simp
      apply List.ext_getElem
      · rw [hl]; simp
      intro i h1 h2
      rw [hl] at h1
      have := hest v hv [i] (by rw [hp]; exact List.Forall₂.cons h1 List.Forall₂.nil)
      unfold Potential.at' cellOf at this
      rw [hvon.card_eq] at this
      simp only [List.map_cons, List.map_nil, position, Nat.mul_zero, Nat.add_zero] at this
      rw [List.getD_eq_getElem _ _ (by rw [hl]; exact h1)] at this
      rw [this]
      simp
    refine ⟨?_, ?_, ?_⟩
    · rw [g1, g3 hv, heq]
    · rw [hnp, hf']; simp [NetFile.relearn, NetFile.net]
    · intro a ha
      rw [hnp] at ha
      obtain ⟨i, _, rfl⟩ := List.mem_map.mp ha
      exact estimate_nonneg (fun c => countsIn_nonneg hc v c) _
  have hsound : Model.Sound f'.net m' := by
    obtain ⟨L, hL⟩ := hs0.good
    have hcard : f'.net.card = f.card := by rw [hf']; rfl
    have hvars : f'.net.vars = f.vars := by rw [hf']; rfl
    have hnn' : m'.tree.Nonneg f.card := by
      refine ⟨?_, ?_⟩
      · intro c x; rw [l3.same]; exact l3.nonneg c x
      · intro s x; rw [hpsi]; exact zero_le_one
    refine ⟨⟨L, ?_⟩, ?_, ?_, ?_, ?_, ?_, ?_, ?_, ?_, ?_, ?_, ?_, hprior, ?_, ?_⟩
    · rw [hcard]; exact hL.frame l3.frame.shape (by rw [l3.frame.sep]) l3.frame.vars
    · rw [hcard]; exact l3.typed
    · rw [hcard]; exact hnn'
    · rw [hcard]; exact l3.nonneg
    · intro v; rw [hcard, l3.card]; exact hs0.card v
    · rw [hvars]; exact l3.varList
    · rw [hroots, l3.independent]; exact hs0.roots
    · rw [hvars]; exact hnd
    · rw [hroots]; exact hs0.rnodup
    · rw [hroots, hvars]; exact hs0.rsub
    · intro v
      rw [hvars, l3.frame.len]
      simp only [l3.frame.vars]
      exact hs0.cover v
    · intro x; rw [hcard]; exact horigs x
    · intro v
      rw [l3.old, hs0.old, hf', relearn_oldOut hf]
      rfl
    · rw [hvars]; exact l3.fam
  have htold : Model.Told f'.net m' (World.fresh f'.net) := by
    have hcard : f'.net.card = f.card := by rw [hf']; rfl
    have hvars : f'.net.vars = f.vars := by rw [hf']; rfl
    refine ⟨?_, ?_, ?_⟩
    · intro v hv
      rw [hvars] at hv
      rw [l3.lik]
      have := ht0.lik v hv
      unfold World.fresh at this ⊢
      simp only [hcard] at this ⊢
      exact this
    · intro v hv
      rw [hvars] at hv
      rw [l3.entered]
      exact ht0.entered v hv
    · intro v _ h; exact absurd h (by simp [World.fresh])
  have hreps : m'.Reps f'.net.card (repd f'.net (World.fresh f'.net)) := by
    have hcard : f'.net.card = f.card := by rw [hf']; rfl
    have hfresh : ∀ x, repd f'.net (World.fresh f'.net) x = f'.net.tables (wrap f.card x) := by
      intro x
      rw [repd_fresh hval, hcard]
    have hpo : ∀ x, ∏ c ∈ Finset.range m'.tree.cliques.length, m'.tree.phi f.card c x = repd f'.net (World.fresh f'.net) x := by
      intro x
      rw [hfresh, ← horigs]
      exact Finset.prod_congr rfl fun c _ => l3.same c x
    rw [hcard]
    refine ⟨?_, ?_, ?_⟩
    · intro x
      show ∏ c ∈ Finset.range m'.tree.cliques.length, m'.tree.phi f.card c x = _ * ∏ s ∈ Finset.range m'.tree.sepsets.length, m'.tree.psi f.card s x
      rw [hpo]
      simp [hpsi]
    · intro c hc x hx
      rw [← hpo]
      exact Finset.prod_eq_zero (Finset.mem_range.mpr hc) hx
    · intro s _ x hx
      have : m'.tree.psi f.card s x = 0 := hx
      rw [hpsi] at this
      exact absurd this one_ne_zero
  rw [hf'] at hsound htold hreps
  refine ⟨ps, m', ?_, a2, ?_, ⟨hsound, htold, hreps⟩, l3.parents, by rw [l3.frame.len, b3], fun c => by rw [l3.frame.vars, b4], hpsi, ?_⟩
  · unfold mStep
    rw [h.sound.vars]
    show (do
      let params ← normaliseParameters f.vars.length params
      _) = _
    rw [a1, ok_bind, b1, ok_bind]
    have : m0.varList = f.vars := hs0.vars
    rw [this, l1, ok_bind]
  · intro v hv cell hcell
    obtain ⟨i, hi⟩ := hidx v hv
    rw [countsIn_at hf hi (htabat i v hi)]
    exact hest v hv cell hcell
  · intro c x
    have hlive : ∀ v, livesIn m'.tree (f.givens v) v c = livesIn m0.tree (f.givens v) v c := by
      intro v
      unfold livesIn
      rw [l3.frame.find]
    simp only [hlive]
    rw [l3.each]
    congr 1
    apply List.map_congr_left
    intro v hv
    exact hsem v (List.mem_filter.mp hv).1 x

end Nip
