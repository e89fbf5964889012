import Verif.Ops
import Verif.Build
import Verif.ElimJunction

/-! # Building a model from a network file -/

namespace Nip

open Res Spec

set_option linter.unusedSectionVars false

/-! ### the mapping made by `initClique` -/

/-- places of the members of a family in a clique -/
def famPlaces (cvars : List Nat) (F : Nat → Bool) (i : Nat) : List Nat := (List.range i).filter (fun j => F (cvars.getD j 0))

theorem famPlaces_le {cvars : List Nat} {F : Nat → Bool} {i j : Nat} (h : i ≤ j) : (famPlaces cvars F i).length ≤ (famPlaces cvars F j).length :=
  ((List.range_sublist.mpr h).filter _).length_le

theorem filter_range_getD (cvars : List Nat) (F : Nat → Bool) : cvars.filter F = (famPlaces cvars F cvars.length).map (fun j => cvars.getD j 0) := by
  have h : cvars = (List.range cvars.length).map (fun j => cvars.getD j 0) := by
    apply List.ext_getElem
    · simp
    · intro i h1 h2; simp [h1]
  unfold famPlaces
  conv_lhs => rw [h]
  rw [List.filter_map]
  rfl

theorem famPlaces_eq {cvars : List Nat} (hn : cvars.Nodup) (F : Nat → Bool) : famPlaces cvars F cvars.length = places cvars (cvars.filter F) := by
  unfold places
  rw [filter_range_getD cvars F, List.map_map]
  conv_lhs => rw [← List.map_id (famPlaces cvars F cvars.length)]
  apply List.map_congr_left
  intro j hj
  have hj' : j < cvars.length := by
    unfold famPlaces at hj
    simpa using (List.mem_filter.mp hj).1
  simp only [Function.comp, id]
  rw [List.getD_eq_getElem _ _ hj']
  symm
  rw [List.findIdx_eq hj']
  refine ⟨by simp, ?_⟩
  intro k hk
  simp only [beq_eq_false_iff_ne, ne_eq]
  intro e
  have := (List.nodup_iff_injective_get.mp hn) (a₁ := ⟨j, hj'⟩) (a₂ := ⟨k, by omega⟩) (by simpa using e)
  simp at this
  omega

theorem initMapping_eq {cvars parents : List Nat} {child : Nat} (hn : cvars.Nodup) (hp : parents.Nodup) (hc : child ∉ parents)
    (hsub : ∀ v, v = child ∨ v ∈ parents → v ∈ cvars) :
    Model.initMapping cvars child parents (parents.length + 1) =
      ok (places cvars (cvars.filter (fun v => decide (v = child ∨ v ∈ parents)))) := by
  obtain ⟨F, hF⟩ : ∃ F : Nat → Bool, F = fun v => decide (v = child ∨ v ∈ parents) := ⟨_, rfl⟩
  rw [← hF, ← famPlaces_eq hn]
  have htot : (famPlaces cvars F cvars.length).length = parents.length + 1 := by
    have h1 : (cvars.filter F).Perm (child :: parents) := by
      rw [List.perm_ext_iff_of_nodup (hn.filter _) (List.nodup_cons.mpr ⟨hc, hp⟩)]
      intro v
      rw [List.mem_filter, hF]
      simp only [decide_eq_true_eq, List.mem_cons]
      exact ⟨fun h => h.2, fun h => ⟨hsub v h, h⟩⟩
    have h2 := h1.length_eq
    rw [filter_range_getD, List.length_map] at h2
    simpa using h2
  unfold Model.initMapping
  obtain ⟨r, r1, r2, r3, r4⟩ := loop_inv (n := cvars.length) (s := (List.replicate (parents.length + 1) 0, 0))
    (f := fun i (st : List Nat × Nat) => do
      if st.2 = parents.length + 1 then ok st
      else do
        let var ← rd cvars i
        let st ← loop (parents.length + 1 - 1) (fun j (st : List Nat × Nat) => do
          let pj ← rd parents j
          if var = pj then do
            let m ← wr st.1 st.2 i
            ok (m, st.2 + 1)
          else ok st) st
        if var = child then do
          let m ← wr st.1 st.2 i
          ok (m, st.2 + 1)
        else ok st)
    (fun i st => st.1.length = parents.length + 1 ∧ st.2 = (famPlaces cvars F i).length ∧ st.1.take st.2 = famPlaces cvars F i)
    ⟨by simp, by simp [famPlaces], by simp [famPlaces]⟩ (by
      rintro i hi ⟨l, k⟩ ⟨h1, h2, h3⟩
      simp only at h1 h2 h3
      have hsucc : famPlaces cvars F (i + 1) = famPlaces cvars F i ++ if F cvars[i] then [i] else [] := by
        unfold famPlaces
        rw [List.range_succ, List.filter_append]
        congr 1
        rw [List.filter_cons, List.getD_eq_getElem _ _ hi]
        simp
      have hle := famPlaces_le (cvars := cvars) (F := F) (i := i + 1) (j := cvars.length) hi
      simp only
      by_cases hk : k = parents.length + 1
      · rw [if_pos hk]
        have hFi : F cvars[i] = false := by
          by_contra hF1
          rw [hsucc] at hle
          simp only [hF1] at hle
          have : F cvars[i] = true := by simpa using hF1
          simp [this] at hle
          omega
        refine ⟨_, rfl, h1, ?_, ?_⟩
        · simp only; rw [hsucc, hFi]; simpa using h2
        · simp only; rw [hsucc, hFi]; simpa using h3
      · rw [if_neg hk]
        have hklt : k < l.length := by
          have := famPlaces_le (cvars := cvars) (F := F) (i := i) (j := cvars.length) (by omega)
          omega
        rw [rd_lt hi, ok_bind]
        have hinner : loop (parents.length + 1 - 1) (fun j (st : List Nat × Nat) => do
            let pj ← rd parents j
            if cvars[i] = pj then do
              let m ← wr st.1 st.2 i
              ok (m, st.2 + 1)
            else ok st) (l, k) = ok (if cvars[i] ∈ parents then (l.set k i, k + 1) else (l, k)) := by
          obtain ⟨s, s1, s2⟩ := loop_inv (n := parents.length + 1 - 1) (s := (l, k)) (f := fun j (st : List Nat × Nat) => do
            let pj ← rd parents j
            if cvars[i] = pj then do
              let m ← wr st.1 st.2 i
              ok (m, st.2 + 1)
            else ok st) (fun j s => s = if cvars[i] ∈ parents.take j then (l.set k i, k + 1) else (l, k)) (by simp) (by
              intro j hj s hs
              have hj' : j < parents.length := by omega
              rw [rd_lt hj', ok_bind]
              have htk : parents.take (j + 1) = parents.take j ++ [parents[j]] := by rw [List.take_succ_eq_append_getElem hj']
              by_cases e : cvars[i] = parents[j]
              · rw [if_pos e]
                have hnot : cvars[i] ∉ parents.take j := by
                  rw [e]
                  intro hm
                  obtain ⟨a, ha, hae⟩ := List.getElem_of_mem hm
                  rw [List.length_take] at ha
                  rw [List.getElem_take] at hae
                  have := (List.nodup_iff_injective_get.mp hp) (a₁ := ⟨a, by omega⟩) (a₂ := ⟨j, hj'⟩) (by simpa using hae)
                  simp at this; omega
                rw [if_neg hnot] at hs
                subst hs
                simp only
                rw [wr_lt hklt, ok_bind]
                have hin : cvars[i] ∈ parents.take (j + 1) := by rw [htk, e]; exact List.mem_append_right _ (List.mem_singleton_self _)
                exact ⟨_, rfl, by rw [if_pos hin]⟩
              · rw [if_neg e]
                refine ⟨_, rfl, ?_⟩
                have hiff : cvars[i] ∈ parents.take (j + 1) ↔ cvars[i] ∈ parents.take j := by
                  rw [htk, List.mem_append, List.mem_singleton]
                  exact ⟨fun h => h.resolve_right e, Or.inl⟩
                rw [hs]
                by_cases hh : cvars[i] ∈ parents.take j
                · rw [if_pos hh, if_pos (hiff.mpr hh)]
                · rw [if_neg hh, if_neg (fun h => hh (hiff.mp h))])
          rw [s1, s2, List.take_of_length_le (by omega)]
        rw [hinner, ok_bind]
        have hset : ∀ (hF1 : F cvars[i] = true), (l.set k i).length = parents.length + 1 ∧ k + 1 = (famPlaces cvars F (i + 1)).length ∧
            (l.set k i).take (k + 1) = famPlaces cvars F (i + 1) := by
          intro hF1
          rw [hsucc, if_pos hF1, ← h3]
          refine ⟨by simp [h1], by simp [Nat.min_eq_left (Nat.le_of_lt hklt)], ?_⟩
          rw [List.take_succ_eq_append_getElem (by simpa using hklt), List.take_set_of_le (le_refl _)]
          simp
        by_cases hcp : cvars[i] ∈ parents
        · rw [if_pos hcp]
          have hne : ¬ cvars[i] = child := ne_of_mem_of_not_mem hcp hc
          rw [if_neg hne]
          refine ⟨_, rfl, hset ?_⟩
          rw [hF]; simp [hcp]
        · rw [if_neg hcp]
          by_cases hch : cvars[i] = child
          · rw [if_pos hch, wr_lt hklt, ok_bind]
            refine ⟨_, rfl, hset ?_⟩
            rw [hF]; simp [hch]
          · rw [if_neg hch]
            have hF0 : F cvars[i] = false := by rw [hF]; simp [hch, hcp]
            refine ⟨_, rfl, h1, ?_, ?_⟩
            · rw [hsucc, hF0]; simpa using h2
            · rw [hsucc, hF0]; simpa using h3)
  rw [r1, ok_bind]
  congr 1
  rw [← r4, r3, htot, ← r2, List.take_length]

/-! ### the graph -/

open Graph

theorem addNodes_eq {n : Nat} : ∀ (vs nodes : List Nat) (g : Graph), Graph.Holds g n nodes [] → (nodes ++ vs).Nodup → (∀ v ∈ vs, 0 < v) →
    nodes.length + vs.length ≤ n → ∃ g', NetFile.addNodes vs g = ok (some g') ∧ Graph.Holds g' n (nodes ++ vs) [] := by
  intro vs
  induction vs with
  | nil => intro nodes g h _ _ _; exact ⟨g, rfl, by simpa using h⟩
  | cons v vs ih =>
    intro nodes g h hn hp hl
    have hv : v ∉ nodes := by
      intro hv
      rw [List.nodup_append] at hn
      exact hn.2.2 v hv v (List.mem_cons_self ..) rfl
    obtain ⟨g1, a1, a2⟩ := addNode_holds h hv (hp v (List.mem_cons_self ..)) (by simp at hl; omega) (by simp)
    obtain ⟨g', b1, b2⟩ := ih (nodes ++ [v]) g1 a2 (by simpa using hn) (fun u hu => hp u (List.mem_cons_of_mem _ hu)) (by simp at hl ⊢; omega)
    refine ⟨g', ?_, by simpa using b2⟩
    unfold NetFile.addNodes at b1 ⊢
    rw [List.foldlM_cons]
    simp only [a1, ok_bind, ne_eq, not_true, if_false]
    exact b1

variable {K : Type} [Zero K] [One K] [Add K] [_root_.Sub K] [Mul K] [Div K] [LinearOrder K]

theorem addEdges_eq {n : Nat} {nodes : List Nat} {edges : List (Nat × Nat)} {g : Graph} (h : Graph.Holds g n nodes edges) (q : Parsed K)
    (hd : q.table.dim = q.parents.length + 1) (hc : q.child ∈ nodes) (hp : ∀ u ∈ q.parents, u ∈ nodes) :
    ∃ g', NetFile.addEdges q g = ok (some g') ∧ Graph.Holds g' n nodes (edges ++ q.parents.map (fun u => (u, q.child))) := by
  unfold NetFile.addEdges
  obtain ⟨s, s1, g', s2, s3⟩ := loop_inv (n := q.table.dim - 1) (s := some g) (f := fun i (st : Option Graph) =>
    match st with
    | none => ok none
    | some g => do
      let u ← rd q.parents i
      let (e, g) ← g.addChild u q.child
      if e ≠ 0 then ok none else ok (some g))
    (fun i st => ∃ g', st = some g' ∧ Graph.Holds g' n nodes (edges ++ (q.parents.take i).map (fun u => (u, q.child))))
    ⟨g, rfl, by simpa using h⟩ (by
      rintro i hi st ⟨g1, rfl, h1⟩
      have hi' : i < q.parents.length := by omega
      obtain ⟨g2, a1, a2⟩ := addChild_holds h1 (hp _ (List.getElem_mem hi')) hc
      simp only
      rw [rd_lt hi', ok_bind, a1, ok_bind]
      refine ⟨some g2, by simp, g2, rfl, ?_⟩
      rw [List.take_succ_eq_append_getElem hi', List.map_append, ← List.append_assoc]
      exact a2)
  refine ⟨g', s1.trans (congrArg ok s2), ?_⟩
  rw [hd, Nat.add_sub_cancel, List.take_length] at s3
  exact s3

/-- parents according to a list of tables -/
def parentsIn (qs : List (Parsed K)) (v : Nat) : List Nat :=
  match qs.find? (fun q => decide (q.child = v)) with
  | some q => q.parents
  | none => []

theorem addTables_eq {n : Nat} {nodes : List Nat} : ∀ (qs : List (Parsed K)) (edges : List (Nat × Nat)) (g : Graph) (var : Nat → VarRec K),
    Graph.Holds g n nodes edges → (∀ q ∈ qs, q.table.dim = q.parents.length + 1 ∧ q.child ∈ nodes ∧ ∀ u ∈ q.parents, u ∈ nodes) →
    (qs.map (fun q => q.child)).Nodup → (∀ q ∈ qs, (var q.child).parents = []) →
    ∃ g' var', qs.foldlM NetFile.addTable (some (g, var)) = ok (some (g', var')) ∧
      Graph.Holds g' n nodes (edges ++ qs.flatMap (fun q => q.parents.map (fun u => (u, q.child)))) ∧
      ∀ v, var' v = { var v with parents := if v ∈ qs.map (fun q => q.child) then parentsIn qs v else (var v).parents } := by
  intro qs
  induction qs with
  | nil => intro edges g var h _ _ _; exact ⟨g, var, rfl, by simpa using h, by simp⟩
  | cons q qs ih =>
    intro edges g var h hq hn hv
    obtain ⟨q1, q2, q3⟩ := hq q (List.mem_cons_self ..)
    obtain ⟨n1, n2⟩ := List.nodup_cons.mp hn
    obtain ⟨g1, a1, a2⟩ := addEdges_eq h q q1 q2 q3
    obtain ⟨var1, hvar1⟩ : ∃ var1, var1 = Function.update var q.child { var q.child with parents := q.parents } := ⟨_, rfl⟩
    have hne : ∀ q' ∈ qs, q'.child ≠ q.child := by
      intro q' hq' e
      exact n1 (by show q.child ∈ _; rw [← e]; exact List.mem_map.mpr ⟨q', hq', rfl⟩)
    obtain ⟨g', var', b1, b2, b3⟩ := ih _ g1 var1 a2 (fun q' hq' => hq q' (List.mem_cons_of_mem _ hq')) n2 (by
      intro q' hq'
      rw [hvar1, Function.update_of_ne (hne q' hq')]
      exact hv q' (List.mem_cons_of_mem _ hq'))
    refine ⟨g', var', ?_, ?_, ?_⟩
    · rw [List.foldlM_cons]
      have : NetFile.addTable (some (g, var)) q = ok (some (g1, var1)) := by
        unfold NetFile.addTable
        simp only [a1, ok_bind]
        rw [hvar1, q1, Nat.add_sub_cancel, List.take_length]
      rw [this]; exact b1
    · rw [List.flatMap_cons, ← List.append_assoc]; exact b2
    · intro v
      rw [b3, hvar1]
      by_cases e : v = q.child
      · subst e
        have h0 : ¬ q.child ∈ qs.map (fun q => q.child) := n1
        simp [parentsIn, h0]
      · rw [Function.update_of_ne e]
        have h1 : (v ∈ (q :: qs).map (fun q => q.child)) ↔ v ∈ qs.map (fun q => q.child) := by simp [e]
        have h2 : parentsIn (q :: qs) v = parentsIn qs v := by
          unfold parentsIn
          rw [List.find?_cons_of_neg (by simpa using Ne.symm e)]
        simp only [h1, h2]

theorem interfaceParents_eq (next : Nat → Option Nat) : ∀ (ps : List Nat) (var : Nat → VarRec K) (u : Nat),
    ps.foldl (NetFile.interfaceParent next) var u =
      { var u with
        oldOutgoing := (var u).oldOutgoing || decide (u ∈ ps ∧ next u ≠ none)
        outgoing := (var u).outgoing || decide (∃ p ∈ ps, next p = some u) } := by
  intro ps
  induction ps with
  | nil => intro var u; simp
  | cons p ps ih =>
    intro var u
    rw [List.foldl_cons, ih]
    have hstep : NetFile.interfaceParent next var p u =
        { var u with
          oldOutgoing := (var u).oldOutgoing || decide (u = p ∧ next u ≠ none)
          outgoing := (var u).outgoing || decide (next p = some u) } := by
      unfold NetFile.interfaceParent
      cases hp : next p with
      | none =>
        by_cases e : u = p
        · subst e; simp [hp]
        · simp [e]
      | some w =>
        simp only
        by_cases e1 : u = w <;> by_cases e2 : u = p
        · subst e1; subst e2; simp [hp]
        · subst e1; simp [Function.update_of_ne e2, e2]
        · subst e2; simp [Function.update_of_ne e1, hp, Ne.symm e1]
        · simp [Function.update_of_ne e1, Function.update_of_ne e2, e2, Ne.symm e1]
    rw [hstep]
    simp only [List.mem_cons, Bool.or_assoc]
    have e1 : (decide (u = p ∧ next u ≠ none) || decide (u ∈ ps ∧ next u ≠ none)) = decide ((u = p ∨ u ∈ ps) ∧ next u ≠ none) := by
      rw [Bool.eq_iff_iff]; simp only [Bool.or_eq_true, decide_eq_true_eq]; tauto
    have e2 : (decide (next p = some u) || decide (∃ p ∈ ps, next p = some u)) = decide (∃ p' ∈ p :: ps, next p' = some u) := by
      rw [Bool.eq_iff_iff]; simp only [Bool.or_eq_true, decide_eq_true_eq, List.mem_cons, exists_eq_or_imp]
    rw [e1, e2]

theorem interfaces_eq (f : NetFile K) (var : Nat → VarRec K) (u : Nat) :
    NetFile.interfaces f var u =
      { var u with
        oldOutgoing := (var u).oldOutgoing || decide ((∃ v ∈ f.vars, u ∈ (var v).parents) ∧ f.next u ≠ none)
        outgoing := (var u).outgoing || decide (∃ v ∈ f.vars, ∃ p ∈ (var v).parents, f.next p = some u) } := by
  unfold NetFile.interfaces
  have key : ∀ (vs : List Nat) (var' : Nat → VarRec K), (∀ u, (var' u).parents = (var u).parents) → ∀ u,
      vs.foldl (fun var v2 => (var v2).parents.foldl (NetFile.interfaceParent f.next) var) var' u =
        { var' u with
          oldOutgoing := (var' u).oldOutgoing || decide ((∃ v ∈ vs, u ∈ (var v).parents) ∧ f.next u ≠ none)
          outgoing := (var' u).outgoing || decide (∃ v ∈ vs, ∃ p ∈ (var v).parents, f.next p = some u) } := by
    intro vs
    induction vs with
    | nil => intro var' _ u; simp
    | cons v vs ih =>
      intro var' hv u
      rw [List.foldl_cons, ih _ (by intro u; rw [interfaceParents_eq]; exact hv u), interfaceParents_eq]
      simp only [hv, Bool.or_assoc]
      have e1 : (decide (u ∈ (var v).parents ∧ f.next u ≠ none) || decide ((∃ v ∈ vs, u ∈ (var v).parents) ∧ f.next u ≠ none)) =
          decide ((∃ v' ∈ v :: vs, u ∈ (var v').parents) ∧ f.next u ≠ none) := by
        rw [Bool.eq_iff_iff]; simp only [Bool.or_eq_true, decide_eq_true_eq, List.mem_cons, exists_eq_or_imp]; tauto
      have e2 : (decide (∃ p ∈ (var v).parents, f.next p = some u) || decide (∃ v ∈ vs, ∃ p ∈ (var v).parents, f.next p = some u)) =
          decide (∃ v' ∈ v :: vs, ∃ p ∈ (var v').parents, f.next p = some u) := by
        rw [Bool.eq_iff_iff]; simp only [Bool.or_eq_true, decide_eq_true_eq, List.mem_cons, exists_eq_or_imp]
      rw [e1, e2]
  exact key f.vars var (fun _ => rfl) u

/-! ### the tree -/

theorem graphToTree_spec (ptr : Nat) (pk sk : List Nat → Int) (card : Nat → Nat) (oldOut out : Nat → Bool) {g : Graph} {n : Nat} {nodes : List Nat}
    {edges : List (Nat × Nat)} (h : Graph.Holds g n nodes edges) (hfull : nodes.length = n) (hne : nodes ≠ []) (hirr : ∀ a, (a, a) ∉ edges)
    (hedge : ∀ e ∈ edges, e.1 ∈ nodes) :
    ∃ code L, ∃ t : JTree K, graphToTree ptr pk sk card oldOut out g = ok (code, t) ∧ t.Good card L ∧
      t.sepsets = L.reverse.map (mkSep card t.varsOf) ∧
      (∀ (c : Nat) cl, t.cliques[c]? = some cl → cl.vars.Pairwise (· < ·) ∧ (∀ v ∈ cl.vars, v ∈ nodes) ∧ cl.p = ones K card cl.vars ∧
        cl.orig = ones K card cl.vars) ∧
      (∀ v ∈ nodes, ∃ c, c < t.cliques.length ∧ v ∈ t.varsOf c ∧ ∀ u, (u, v) ∈ edges → u ∈ t.varsOf c) ∧
      (∃ c, c < t.cliques.length ∧ ∀ v ∈ nodes, out v = true → v ∈ t.varsOf c) ∧
      (∃ c, c < t.cliques.length ∧ ∀ v ∈ nodes, oldOut v = true → v ∈ t.varsOf c) ∧
      (∀ c c', c < t.cliques.length → c' < t.cliques.length → (∀ v ∈ t.varsOf c, v ∈ t.varsOf c') → c = c') ∧
      (∀ Q : List Nat, (∀ a ∈ Q, a ∈ nodes) → (∀ a ∈ Q, ∀ b ∈ Q, a ≠ b → Linked edges oldOut out nodes a b) → ∃ c, c < t.cliques.length ∧ ∀ a ∈ Q, a ∈ t.varsOf c) ∧
      (∃ v ∈ nodes, ∃ c, c < t.cliques.length ∧ ∀ u ∈ t.varsOf c, u = v ∨ Linked edges oldOut out nodes v u) := by
  obtain ⟨seq, A, s1, sA, s2⟩ := graphToCliques_eq ptr pk sk oldOut out h hfull hne hirr
  have hk : 0 < (keep [] seq).length := by
    have hl := s1.length
    rw [List.toFinset_card_of_nodup h.nodup] at hl
    cases seq with
    | nil =>
      have := List.length_pos_iff.mpr hne
      simp at hl; omega
    | cons p seq =>
      obtain ⟨x, hx, _⟩ := keep_covers (p :: seq) [] p.1 p.2 (List.mem_cons_self ..)
      exact List.length_pos_of_mem hx
  obtain ⟨code, t, L, c1, c2, c3, c5, c4⟩ := createSepsets_good (K := K) ptr card s1 hk
  have hcom : ∀ Q : List Nat, (∀ a ∈ Q, a ∈ nodes) → (∀ a ∈ Q, ∀ b ∈ Q, a ≠ b → Linked edges oldOut out nodes a b) →
      ∃ c ∈ (keep [] seq).reverse.map (fun c => c.sort (· ≤ ·)), ∀ a ∈ Q, a ∈ c := by
    have hcom' : ∀ Q : List Nat, Q ≠ [] → (∀ a ∈ Q, a ∈ nodes) → (∀ a ∈ Q, ∀ b ∈ Q, a ≠ b → Linked edges oldOut out nodes a b) →
        ∃ c ∈ (keep [] seq).reverse.map (fun c => c.sort (· ≤ ·)), ∀ a ∈ Q, a ∈ c := by
      intro Q hQ hs hl
      obtain ⟨v, c, hc, hsub⟩ := s1.complete Q.toFinset (by simpa using hQ) (fun a ha => by
        have := hs a (by simpa using ha); simpa using this) (by
          intro a ha b hb hab
          have ha' : a ∈ Q := by simpa using ha
          have hb' : b ∈ Q := by simpa using hb
          exact (sA a b (hs a ha') (hs b hb')).mpr (hl a ha' b hb' hab))
      obtain ⟨x, hx, hcx⟩ := keep_covers seq [] v c hc
      refine ⟨x.sort (· ≤ ·), List.mem_map.mpr ⟨x, by simpa using hx, rfl⟩, ?_⟩
      intro a ha
      rw [Finset.mem_sort]
      exact hcx (hsub (by simpa using ha))
    intro Q hs hl
    by_cases hQ : Q = []
    · obtain ⟨v, hvn⟩ := List.exists_mem_of_ne_nil _ hne
      obtain ⟨c, hc, _⟩ := hcom' [v] (by simp) (by simpa using hvn) (by
        intro a ha b hb hab
        exact absurd ((List.mem_singleton.mp ha).trans (List.mem_singleton.mp hb).symm) hab)
      exact ⟨c, hc, by simp [hQ]⟩
    · exact hcom' Q hQ hs hl
  have hmap : t.cliques.map (fun cl => cl.vars) = (keep [] seq).reverse.map (fun c => c.sort (· ≤ ·)) := by
    have := congrArg (List.map Prod.fst) c4
    simpa [List.map_map, Function.comp_def, mkClique] using this
  have hidx : ∀ c ∈ (keep [] seq).reverse.map (fun c => c.sort (· ≤ ·)), ∃ i, i < t.cliques.length ∧ t.varsOf i = c := by
    intro c hc
    rw [← hmap] at hc
    obtain ⟨cl, h1, h2⟩ := List.mem_map.mp hc
    obtain ⟨i, hi, h3⟩ := List.getElem_of_mem h1
    refine ⟨i, hi, ?_⟩
    rw [JTree.varsOf_eq (List.getElem?_eq_getElem hi), h3, h2]
  have hanti : ∀ c c', c < t.cliques.length → c' < t.cliques.length → (∀ v ∈ t.varsOf c, v ∈ t.varsOf c') → c = c' := by
    have hp : (t.cliques.map (fun cl => cl.vars)).Pairwise (fun a b => ¬ (∀ v ∈ a, v ∈ b) ∧ ¬ (∀ v ∈ b, v ∈ a)) := by
      rw [hmap, List.pairwise_map, List.pairwise_reverse]
      refine (s1.antichain [] List.Pairwise.nil (by simp)).imp ?_
      intro x y hxy
      constructor
      · intro h3
        exact hxy.2 (fun a ha => by have := h3 a (by simpa using ha); simpa using this)
      · intro h3
        exact hxy.1 (fun a ha => by have := h3 a (by simpa using ha); simpa using this)
    rw [List.pairwise_map, List.pairwise_iff_getElem] at hp
    intro c c' hc hc' hs
    rw [JTree.varsOf_eq (List.getElem?_eq_getElem hc), JTree.varsOf_eq (List.getElem?_eq_getElem hc')] at hs
    rcases lt_trichotomy c c' with hlt | heq | hlt
    · exact absurd hs (hp c c' hc hc' hlt).1
    · exact heq
    · exact absurd hs (hp c' c hc' hc hlt).2
  have hhub : ∃ v ∈ nodes, ∃ c, c < t.cliques.length ∧ ∀ u ∈ t.varsOf c, u = v ∨ Linked edges oldOut out nodes v u := by
    have s1' := s1
    generalize hR : nodes.toFinset = R at s1'
    cases s1' with
    | nil => simp [keep] at hk
    | @cons _ _ v c t' hv hc ht =>
      rw [← hR] at hv hc
      have hkeep : ∀ (l : List (Nat × Finset Nat)) (K : List (Finset Nat)), ∀ x ∈ K, x ∈ keep K l := by
        intro l
        induction l with
        | nil => intro K x hx; exact hx
        | cons q l ih =>
          intro K x hx
          refine ih _ x ?_
          split
          · exact hx
          · exact List.mem_cons_of_mem _ hx
      obtain ⟨i, hi, he⟩ := hidx (c.sort (· ≤ ·)) (List.mem_map.mpr ⟨c, by
        rw [List.mem_reverse]
        exact hkeep t' _ c (by simp), rfl⟩)
      have hvn : v ∈ nodes := by simpa using hv
      refine ⟨v, hvn, i, hi, fun u hu => ?_⟩
      rw [he, Finset.mem_sort, hc] at hu
      rcases hu with h1 | ⟨h1, h2⟩
      · exact Or.inl h1
      · exact Or.inr ((sA v u hvn (by simpa using h1)).mp h2)
  refine ⟨code, L, t, ?_, c2, c5, ?_, ?_, ?_, ?_, hanti, ?_, hhub⟩
  · unfold graphToTree
    rw [s2, ok_bind, makeCliques_eq, ok_bind]
    exact c1
  · intro c cl hcl
    have h1 : (cl.vars, cl.p, cl.orig) ∈ t.cliques.map (fun cl => (cl.vars, cl.p, cl.orig)) := List.mem_map.mpr ⟨cl, List.mem_of_getElem? hcl, rfl⟩
    rw [c4, List.map_map] at h1
    obtain ⟨vs, h2, h3⟩ := List.mem_map.mp h1
    simp only [Function.comp, mkClique, Prod.mk.injEq] at h3
    obtain ⟨e1, e2, e3⟩ := h3
    obtain ⟨x, hx, hxs⟩ := List.mem_map.mp h2
    refine ⟨?_, ?_, ?_, ?_⟩
    · rw [← e1, ← hxs]; exact (Finset.sortedLT_sort _).pairwise
    · intro a ha
      rw [← e1, ← hxs, Finset.mem_sort] at ha
      rcases keep_sub seq [] x (by simpa using hx) with h5 | ⟨v, h5⟩
      · cases h5
      · have := (s1.subset v x h5).1 ha
        simpa using this
    · rw [← e2, ← e1]; rfl
    · rw [← e3, ← e1]; rfl
  · intro v hvn
    obtain ⟨c, hc, hs⟩ := hcom (nodes.filter (fun u => u = v ∨ (u, v) ∈ edges)) (fun a ha => (List.mem_filter.mp ha).1) (by
      intro a ha b hb hab
      simp only [List.mem_filter, decide_eq_true_eq] at ha hb
      refine ⟨hab, ?_⟩
      rcases ha.2 with rfl | ha2
      · rcases hb.2 with rfl | hb2
        · exact absurd rfl hab
        · exact Or.inr (Or.inl hb2)
      · rcases hb.2 with rfl | hb2
        · exact Or.inl ha2
        · exact Or.inr (Or.inr (Or.inl ⟨v, hvn, ha2, hb2⟩)))
    obtain ⟨i, hi, rfl⟩ := hidx c hc
    refine ⟨i, hi, hs v (by simp [hvn]), ?_⟩
    intro u hu
    exact hs u (by simp only [List.mem_filter, decide_eq_true_eq]; exact ⟨hedge _ hu, Or.inr hu⟩)
  · obtain ⟨c, hc, hs⟩ := hcom (nodes.filter (fun u => out u)) (fun a ha => (List.mem_filter.mp ha).1) (by
      intro a ha b hb hab
      exact ⟨hab, Or.inr (Or.inr (Or.inr (Or.inr ⟨(List.mem_filter.mp ha).2, (List.mem_filter.mp hb).2⟩)))⟩)
    obtain ⟨i, hi, rfl⟩ := hidx c hc
    exact ⟨i, hi, fun v hvn ho => hs v (List.mem_filter.mpr ⟨hvn, ho⟩)⟩
  · obtain ⟨c, hc, hs⟩ := hcom (nodes.filter (fun u => oldOut u)) (fun a ha => (List.mem_filter.mp ha).1) (by
      intro a ha b hb hab
      exact ⟨hab, Or.inr (Or.inr (Or.inr (Or.inl ⟨(List.mem_filter.mp ha).2, (List.mem_filter.mp hb).2⟩)))⟩)
    obtain ⟨i, hi, rfl⟩ := hidx c hc
    exact ⟨i, hi, fun v hvn ho => hs v (List.mem_filter.mpr ⟨hvn, ho⟩)⟩
  · intro Q h1 h2
    obtain ⟨c, hc, hs⟩ := hcom Q h1 h2
    obtain ⟨i, hi, rfl⟩ := hidx c hc
    exact ⟨i, hi, hs⟩

/-! ### the tables -/

theorem findClique_some {t : JTree K} {vs : List Nat} (h : ∃ c, c < t.cliques.length ∧ ∀ u ∈ vs, u ∈ t.varsOf c) :
    ∃ c, t.findClique vs = ok (some c) ∧ c < t.cliques.length ∧ ∀ u ∈ vs, u ∈ t.varsOf c := by
  obtain ⟨c, hc, hu⟩ := h
  have e : t.findClique vs = ok ((List.range' 0 t.cliques.length).find? (fun i => decide (∀ u ∈ vs, u ∈ t.varsOf i))) := by
    unfold JTree.findClique
    refine firstIdx_eq 0 _ ?_
    intro j _ hj
    have hj' : j < t.cliques.length := by omega
    rw [rd_lt hj', ok_bind, countCommon_eq, ok_bind]
    congr 1
    rw [JTree.varsOf_eq (List.getElem?_eq_getElem hj'), Bool.eq_iff_iff, beq_iff_eq, List.length_filter_eq_length_iff]
    simp
  cases hf : (List.range' 0 t.cliques.length).find? (fun i => decide (∀ u ∈ vs, u ∈ t.varsOf i)) with
  | none =>
    rw [List.find?_eq_none] at hf
    exact absurd (by simpa using hu) (hf c (by simp [List.mem_range'_1, hc]))
  | some d =>
    have h1 := List.find?_some hf
    have h2 := List.mem_of_find?_eq_some hf
    simp only [List.mem_range'_1] at h2
    exact ⟨d, by rw [e, hf], by omega, by simpa using h1⟩

/-- only tables of cliques differ -/
structure JTree.Frame (t t' : JTree K) : Prop where
  sep : t'.sepsets = t.sepsets
  clq : t'.cliques.map (fun c => (c.vars, c.sepsets)) = t.cliques.map (fun c => (c.vars, c.sepsets))

namespace JTree.Frame

theorem at_ {t t' : JTree K} (h : t.Frame t') (c : Nat) :
    (t'.cliques[c]?).map (fun c => (c.vars, c.sepsets)) = (t.cliques[c]?).map (fun c => (c.vars, c.sepsets)) := by
  have := congrArg (fun l => l[c]?) h.clq
  simpa using this

theorem len {t t' : JTree K} (h : t.Frame t') : t'.cliques.length = t.cliques.length := by
  have := congrArg List.length h.clq
  simpa using this

theorem vars {t t' : JTree K} (h : t.Frame t') (c : Nat) : t'.varsOf c = t.varsOf c := by
  have := h.at_ c
  unfold JTree.varsOf
  cases h1 : t'.cliques[c]? <;> cases h2 : t.cliques[c]? <;> rw [h1, h2] at this <;> simp at this
  exact this.1

theorem shape {t t' : JTree K} (h : t.Frame t') : t.SameShape t' := by
  refine ⟨h.len, ?_, ?_⟩
  · intro c
    have := h.at_ c
    unfold JTree.adj
    cases h1 : t'.cliques[c]? <;> cases h2 : t.cliques[c]? <;> rw [h1, h2] at this <;> simp at this
    exact this.2
  · intro s; unfold JTree.ends; rw [h.sep]

theorem trans {t1 t2 t3 : JTree K} (h : t1.Frame t2) (g : t2.Frame t3) : t1.Frame t3 := ⟨g.sep.trans h.sep, g.clq.trans h.clq⟩

theorem find {t t' : JTree K} (h : t.Frame t') (vs : List Nat) : t'.findClique vs = t.findClique vs := by
  unfold JTree.findClique
  rw [h.len]
  congr 1
  funext i
  have := h.at_ i
  unfold rd
  cases h1 : t'.cliques[i]? <;> cases h2 : t.cliques[i]? <;> rw [h1, h2] at this
  · simp at this
  · simp at this
  · simp only [Option.map_some, Option.some.injEq, Prod.mk.injEq] at this
    simp only [ok_bind]
    rw [this.1]

theorem set {t : JTree K} {c : Nat} {cl cl' : Clique K} (h : t.cliques[c]? = some cl) (hv : cl'.vars = cl.vars) (hs : cl'.sepsets = cl.sepsets) :
    t.Frame { cliques := t.cliques.set c cl', sepsets := t.sepsets } := by
  refine ⟨rfl, ?_⟩
  apply List.ext_getElem?
  intro i
  rw [List.getElem?_map, List.getElem?_map, List.getElem?_set]
  by_cases e : c = i
  · subst e
    have hc : c < t.cliques.length := (List.getElem?_eq_some_iff.mp h).1
    rw [if_pos rfl, if_pos hc, h]
    simp [hv, hs]
  · rw [if_neg e]

end JTree.Frame

/-- the family as listed in a clique and in the file -/
theorem family_eq {f : NetFile K} (hf : f.Fits) {q : Parsed K} (hq : q ∈ f.pots) {cvars : List Nat} (hs : cvars.Pairwise (· < ·))
    (hsub : ∀ v, v = q.child ∨ v ∈ q.parents → v ∈ cvars) : cvars.filter (fun v => decide (v = q.child ∨ v ∈ q.parents)) = f.family q := by
  unfold NetFile.family
  have hn1 : (cvars.filter (fun v => decide (v = q.child ∨ v ∈ q.parents))).Pairwise (· < ·) := hs.filter _
  have hn2 : (f.vars.filter (fun v => decide (v = q.child ∨ v ∈ q.parents))).Pairwise (· < ·) := hf.sorted.filter _
  refine List.Perm.eq_of_pairwise (le := (· < ·)) (fun a b _ _ h1 h2 => absurd h1 (lt_asymm h2)) hn1 hn2 ?_
  rw [List.perm_ext_iff_of_nodup (hn1.imp ne_of_lt) (hn2.imp ne_of_lt)]
  intro v
  simp only [List.mem_filter, decide_eq_true_eq]
  constructor
  · rintro ⟨_, h⟩
    refine ⟨?_, h⟩
    rcases h with rfl | h
    · exact hf.child q hq
    · exact ((hf.parents q hq).2 v h).1
  · rintro ⟨_, h⟩; exact ⟨hsub v h, h⟩

theorem family_length {f : NetFile K} (hf : f.Fits) {q : Parsed K} (hq : q ∈ f.pots) : (f.family q).length = q.parents.length + 1 := by
  have h1 : (f.family q).Perm (q.child :: q.parents) := by
    unfold NetFile.family
    rw [List.perm_ext_iff_of_nodup ((hf.sorted.imp ne_of_lt).filter _)
      (List.nodup_cons.mpr ⟨fun h => ((hf.parents q hq).2 _ h).2 rfl, (hf.parents q hq).1⟩)]
    intro v
    simp only [List.mem_filter, decide_eq_true_eq, List.mem_cons]
    constructor
    · exact fun h => h.2
    · intro h
      refine ⟨?_, h⟩
      rcases h with rfl | h
      · exact hf.child q hq
      · exact ((hf.parents q hq).2 v h).1
  simpa using h1.length_eq

theorem table_on {f : NetFile K} (hf : f.Fits) {q : Parsed K} (hq : q ∈ f.pots) : TableOn f.card (f.family q) q.table := by
  obtain ⟨h1, h2⟩ := hf.shape q hq
  refine ⟨⟨h2, ?_⟩, h1⟩
  intro c hc
  rw [h1] at hc
  obtain ⟨v, hv, rfl⟩ := List.mem_map.mp hc
  exact hf.states v (List.mem_filter.mp hv).1

theorem entry_sem (f : NetFile K) (q : Parsed K) (x : Asg) : f.entry q (wrap f.card x) = sem f.card (f.family q) q.table x := rfl

theorem entry_nonneg {f : NetFile K} (hf : f.Valid) {q : Parsed K} (hq : q ∈ f.pots) (x : Asg) : 0 ≤ f.entry q (wrap f.card x) := by
  rw [entry_sem]
  unfold sem
  have hon := table_on hf hq
  rw [Potential.at'_eq_getElem hon.wf (hon.inRange x)]
  exact hf.nonneg q hq _ (List.getElem_mem _)

theorem init_sem {card : Nat → Nat} {cvars fam : List Nat} {p q : Potential K} (hp : TableOn card cvars p) (hq : TableOn card fam q)
    (hsub : fam ⊆ cvars) (h0 : fam ≠ []) :
    ∃ r, Potential.init q p (some (places cvars fam)) = ok (0, r) ∧ TableOn card cvars r ∧ ∀ x, sem card cvars r x = sem card cvars p x * sem card fam q x := by
  refine ⟨_, Potential.init_ofFn_mapping hp.wf hq.wf ?_ ?_, ?_, ?_⟩
  · rw [hp.card_eq, hq.card_eq]; exact places_into hsub
  · unfold Potential.dim; rw [hq.card_eq]; simpa using h0
  · rw [hp.card_eq]; exact ofFn_on hp.pos _
  · intro x
    rw [hp.card_eq, sem_ofFn hp.pos, project_states hsub]
    rfl

theorem init_sem_none {card : Nat → Nat} {cvars : List Nat} {p q : Potential K} (hp : TableOn card cvars p) (hq : TableOn card cvars q) :
    ∃ r, Potential.init q p none = ok (0, r) ∧ TableOn card cvars r ∧ ∀ x, sem card cvars r x = sem card cvars p x * sem card cvars q x := by
  refine ⟨_, Potential.init_ofFn_none hp.wf hq.wf (hq.card_eq.trans hp.card_eq.symm), ?_, ?_⟩
  · rw [hp.card_eq]; exact ofFn_on hp.pos _
  · intro x
    rw [hp.card_eq, sem_ofFn hp.pos]
    rfl

theorem initClique_eq {f : NetFile K} (hf : f.Fits) {q : Parsed K} (hq : q ∈ f.pots) {m : Model K} (ht : m.tree.Typed f.card) {c : Nat} {cl : Clique K}
    (hcl : m.tree.cliques[c]? = some cl) (hs : cl.vars.Pairwise (· < ·)) (hsub : ∀ v, v = q.child ∨ v ∈ q.parents → v ∈ cl.vars)
    (hpar : (m.var q.child).parents = q.parents) :
    ∃ t', m.initClique c q.child q.table false = ok (0, { m with tree := t' }) ∧ m.tree.Frame t' ∧ t'.Typed f.card ∧
      (∀ d x, t'.phi f.card d x = if d = c then m.tree.phi f.card d x * f.entry q (wrap f.card x) else m.tree.phi f.card d x) ∧
      (∀ d x, t'.origOf f.card d x = if d = c then m.tree.origOf f.card d x * f.entry q (wrap f.card x) else m.tree.origOf f.card d x) := by
  obtain ⟨n1, n2, n3⟩ := ht.clq c cl hcl
  have hc : c < m.tree.cliques.length := (List.getElem?_eq_some_iff.mp hcl).1
  have hfam := family_eq hf hq hs hsub
  have hlen := family_length hf hq
  have hon := table_on hf hq
  have hdim : q.table.dim = q.parents.length + 1 := by unfold Potential.dim; rw [hon.card_eq, List.length_map, hlen]
  have hcdim : cl.p.dim = cl.vars.length := by unfold Potential.dim; rw [n2.card_eq, List.length_map]
  have hmap : ∃ mp, (if q.table.dim < cl.p.dim then do
        let mp ← Model.initMapping cl.vars q.child (m.var q.child).parents q.table.dim
        ok (some mp)
      else ok none) = ok mp ∧ ∀ p, TableOn f.card cl.vars p → ∃ r, Potential.init q.table p mp = ok (0, r) ∧ TableOn f.card cl.vars r ∧
        ∀ x, sem f.card cl.vars r x = sem f.card cl.vars p x * f.entry q (wrap f.card x) := by
    by_cases hd : q.table.dim < cl.p.dim
    · rw [if_pos hd, hdim, hpar, initMapping_eq n1 (hf.parents q hq).1 (fun h => ((hf.parents q hq).2 _ h).2 rfl) hsub, hfam]
      refine ⟨_, rfl, ?_⟩
      intro p hp
      refine init_sem hp hon ?_ ?_
      · rw [← hfam]; exact List.filter_subset_self _
      · intro h; rw [h] at hlen; simp at hlen
    · rw [if_neg hd]
      refine ⟨_, rfl, ?_⟩
      have : f.family q = cl.vars := by
        rw [← hfam]
        refine List.Sublist.eq_of_length_le List.filter_sublist ?_
        rw [hfam, hlen, ← hdim, ← hcdim]; omega
      intro p hp
      simp only [entry_sem]
      rw [this] at hon ⊢
      exact init_sem_none hp hon
  obtain ⟨mp, hmp, hinit⟩ := hmap
  obtain ⟨r, r1, r2, r3⟩ := hinit cl.p n2
  obtain ⟨o, o1, o2, o3⟩ := hinit cl.orig n3
  have hfr : m.tree.Frame { cliques := m.tree.cliques.set c { cl with p := r, orig := o }, sepsets := m.tree.sepsets } :=
    JTree.Frame.set hcl rfl rfl
  refine ⟨{ cliques := m.tree.cliques.set c { cl with p := r, orig := o }, sepsets := m.tree.sepsets }, ?_, hfr, ⟨?_, ?_⟩, ?_, ?_⟩
  · unfold Model.initClique
    rw [rd_eq_ok.mpr hcl, ok_bind]
    simp only [hmp, ok_bind, r1, o1, wr_lt hc, ne_eq, not_true, if_false]
    rfl
  · intro d dl hd
    simp only [List.getElem?_set] at hd
    split at hd
    · simp only [Option.some.injEq] at hd
      rw [← hd]; exact ⟨n1, r2, o2⟩
    · exact ht.clq d dl hd
  · intro s sp hs
    rw [hfr.vars, hfr.vars]
    exact ht.sep s sp hs
  · intro d x
    unfold JTree.phi
    simp only [List.getElem?_set]
    by_cases e : c = d
    · subst e; rw [hcl]; simp [hc, r3]
    · rw [if_neg e, if_neg (Ne.symm e)]
  · intro d x
    unfold JTree.origOf
    simp only [List.getElem?_set]
    by_cases e : c = d
    · subst e; rw [hcl]; simp [hc, o3]
    · rw [if_neg e, if_neg (Ne.symm e)]

/-- the clique whose tables receive the table of the file -/
def home (t : JTree K) (q : Parsed K) (c : Nat) : Bool :=
  match t.findClique (q.parents ++ [q.child]) with
  | ok (some d) => d == c
  | _ => false

/-- after some tables have been used -/
structure Stage {K : Type} [Field K] [LinearOrder K] [IsStrictOrderedRing K] (f : NetFile K) (t0 : JTree K) (var0 : Nat → VarRec K) (done : List (Parsed K)) (m : Model K) : Prop where
  frame : t0.Frame m.tree
  typed : m.tree.Typed f.card
  same : ∀ c x, m.tree.phi f.card c x = m.tree.origOf f.card c x
  nonneg : ∀ c x, 0 ≤ m.tree.origOf f.card c x
  prod : ∀ x, ∏ c ∈ Finset.range m.tree.cliques.length, m.tree.origOf f.card c x =
    ((done.filter (fun q => decide (q.parents ≠ []))).map (fun q => f.entry q (wrap f.card x))).prod
  parts : ∀ c x, m.tree.origOf f.card c x =
    ((done.filter (fun q => decide (q.parents ≠ []) && home t0 q c)).map (fun q => f.entry q (wrap f.card x))).prod
  card : ∀ v, (m.var v).card = (var0 v).card
  parents : ∀ v, (m.var v).parents = (var0 v).parents
  lik : ∀ v, (m.var v).likelihood = (var0 v).likelihood
  entered : ∀ v, (m.var v).priorEntered = (var0 v).priorEntered
  old : ∀ v, (m.var v).oldOutgoing = (var0 v).oldOutgoing
  out : ∀ v, (m.var v).outgoing = (var0 v).outgoing
  prior : ∀ v, (m.var v).prior = match done.find? (fun q => decide (q.child = v)) with
    | some q => if q.parents = [] then some q.table.data else none
    | none => none
  fam : ∀ v ∈ f.vars, ∃ c, m.tree.findClique ((m.var v).parents ++ [v]) = ok (some c) ∧ c < m.tree.cliques.length ∧
    (∀ u ∈ (m.var v).parents ++ [v], u ∈ m.tree.varsOf c) ∧ ((m.var v).familyClique = none ∨ (m.var v).familyClique = some c)
  varList : m.varList = f.vars
  independent : m.independent = []
  known : ∀ q ∈ done, ∃ c, (m.var q.child).familyClique = some c

theorem find_append {done : List (Parsed K)} {q : Parsed K} (hn : ((done ++ [q]).map (fun q => q.child)).Nodup) (v : Nat) :
    (done ++ [q]).find? (fun q => decide (q.child = v)) =
      if v = q.child then some q else done.find? (fun q => decide (q.child = v)) := by
  rw [List.find?_append]
  by_cases e : v = q.child
  · rw [if_pos e]
    have : done.find? (fun q => decide (q.child = v)) = none := by
      rw [List.find?_eq_none]
      intro q' hq'
      rw [List.map_append, List.nodup_append] at hn
      have := hn.2.2 q'.child (List.mem_map.mpr ⟨q', hq', rfl⟩) q.child (by simp)
      simpa [e] using this
    rw [this]
    simp [e]
  · rw [if_neg e]
    simp [Ne.symm e]

theorem initTable_eq {K : Type} [Field K] [LinearOrder K] [IsStrictOrderedRing K] {f : NetFile K} (hf : f.Valid) {t0 : JTree K} {var0 : Nat → VarRec K}
    (hsorted : ∀ (c : Nat) cl, t0.cliques[c]? = some cl → cl.vars.Pairwise (· < ·))
    (hcard : ∀ v, (var0 v).card = f.card v) {done : List (Parsed K)} {q : Parsed K} (hq : q ∈ f.pots)
    (hpar : (var0 q.child).parents = q.parents) (hn : ((done ++ [q]).map (fun q => q.child)).Nodup) {m : Model K} (h : Stage f t0 var0 done m) :
    ∃ m', NetFile.initTable (some m) q = ok (some m') ∧ Stage f t0 var0 (done ++ [q]) m' := by
  obtain ⟨c, f1, f2, f3, f4⟩ := h.fam q.child (hf.child q hq)
  have hlen := family_length hf hq
  have hon := table_on hf hq
  have hdim : q.table.dim = q.parents.length + 1 := by unfold Potential.dim; rw [hon.card_eq, List.length_map, hlen]
  have hff : m.findFamily q.child = ok (some c, m.memo q.child c) := by
    unfold Model.findFamily
    rcases f4 with e | e
    · rw [e, f1, ok_bind]; rfl
    · rw [e]
      simp only
      congr 2
      unfold Model.memo Model.setVar
      have : ({ m.var q.child with familyClique := some c } : VarRec K) = m.var q.child := by rw [← e]
      rw [this, Function.update_eq_self]
  obtain ⟨m1, hm1⟩ : ∃ m1, m1 = m.memo q.child c := ⟨_, rfl⟩
  rw [← hm1] at hff
  have hsame := Model.memo_same m q.child c
  rw [← hm1] at hsame
  have hmv := Model.memo_var m q.child c
  rw [← hm1] at hmv
  have htree : m1.tree = m.tree := by rw [hm1]; rfl
  have hfam1 : ∀ v ∈ f.vars, ∃ c, m1.tree.findClique ((m1.var v).parents ++ [v]) = ok (some c) ∧ c < m1.tree.cliques.length ∧
      (∀ u ∈ (m1.var v).parents ++ [v], u ∈ m1.tree.varsOf c) ∧ ((m1.var v).familyClique = none ∨ (m1.var v).familyClique = some c) := by
    intro v hv
    obtain ⟨d, g1, g2, g3, g4⟩ := h.fam v hv
    rw [htree, hsame.parents, (hmv v).2.2]
    refine ⟨d, g1, g2, g3, ?_⟩
    by_cases e : v = q.child
    · subst e
      rw [f1] at g1
      simp only [ok.injEq, Option.some.injEq] at g1
      right; simp [g1]
    · simpa [e] using g4
  have hkn : ∀ q' ∈ done ++ [q], ∃ c, (m1.var q'.child).familyClique = some c := by
    intro q' hq'
    rw [(hmv q'.child).2.2]
    by_cases e : q'.child = q.child
    · exact ⟨c, if_pos e⟩
    · rw [if_neg e]
      rcases List.mem_append.mp hq' with hq' | hq'
      · exact h.known q' hq'
      · exact absurd (by rw [List.mem_singleton.mp hq']) e
  have hvl : m1.varList = f.vars := hsame.varList.trans h.varList
  have hin : m1.independent = [] := hsame.independent.trans h.independent
  unfold NetFile.initTable
  simp only [hff, ok_bind]
  by_cases hp : q.parents = []
  · have hd : ¬ 1 < q.table.dim := by rw [hdim, hp]; simp
    rw [if_neg hd]
    have hfl : f.family q = [q.child] := by
      have h1 : q.child ∈ f.family q := by unfold NetFile.family; simp [hf.child q hq]
      rw [hp] at hlen
      obtain ⟨a, ha⟩ := List.length_eq_one_iff.mp hlen
      rw [ha] at h1 ⊢
      rw [List.mem_singleton.mp h1]
    have hdl : q.table.data.length = f.card q.child := by
      rw [hon.wf.1, hon.card_eq, hfl]; simp
    have hc1 : (m1.var q.child).card = f.card q.child := by rw [hsame.card, h.card, hcard]
    rw [Model.copy_eq (n := (m1.var q.child).card) (by simp) (hdl.trans hc1.symm), ok_bind]
    refine ⟨_, rfl, ?_⟩
    have hfil : (done ++ [q]).filter (fun q => decide (q.parents ≠ [])) = done.filter (fun q => decide (q.parents ≠ [])) := by
      rw [List.filter_append]; simp [hp]
    have hset : ∀ v, (m1.setVar q.child { m1.var q.child with prior := some q.table.data }).var v =
        if v = q.child then { m1.var q.child with prior := some q.table.data } else m1.var v := by
      intro v
      unfold Model.setVar
      simp only
      by_cases e : v = q.child
      · subst e; simp
      · simp [Function.update_of_ne e, e]
    have htr : (m1.setVar q.child { m1.var q.child with prior := some q.table.data }).tree = m.tree := htree
    obtain ⟨m2, hm2⟩ : ∃ m2, m2 = m1.setVar q.child { m1.var q.child with prior := some q.table.data } := ⟨_, rfl⟩
    have hvl2 : m2.varList = f.vars := by rw [hm2]; exact hvl
    have hin2 : m2.independent = [] := by rw [hm2]; exact hin
    rw [← hm2] at hset htr ⊢
    refine ⟨by rw [htr]; exact h.frame, by rw [htr]; exact h.typed, by rw [htr]; exact h.same, by rw [htr]; exact h.nonneg,
      by rw [htr, hfil]; exact h.prod, ?_, ?_, ?_, ?_, ?_, ?_, ?_, ?_, ?_, hvl2, hin2, ?_⟩
    · intro d x
      rw [htr, h.parts, List.filter_append]
      simp [hp]
    · intro v; rw [hset, ← h.card, ← hsame.card]; split <;> simp_all
    · intro v; rw [hset, ← h.parents, ← hsame.parents]; split <;> simp_all
    · intro v; rw [hset, ← h.lik, ← (hmv v).1]; split <;> simp_all
    · intro v; rw [hset, ← h.entered, ← (hmv v).2.1]; split <;> simp_all
    · intro v; rw [hset, ← h.old, ← hsame.old]; split <;> simp_all
    · intro v; rw [hset, ← h.out, ← hsame.out]; split <;> simp_all
    · intro v
      rw [hset, find_append hn]
      by_cases e : v = q.child
      · simp [e, hp]
      · rw [if_neg e, if_neg e, hsame.prior]; exact h.prior v
    · intro v hv
      obtain ⟨d, g1, g2, g3, g4⟩ := hfam1 v hv
      rw [htree] at g1 g2 g3
      have e1 : (m2.var v).parents = (m1.var v).parents := by rw [hset]; split <;> simp_all
      have e2 : (m2.var v).familyClique = (m1.var v).familyClique := by rw [hset]; split <;> simp_all
      rw [e1, e2, htr]
      exact ⟨d, g1, g2, g3, g4⟩
    · intro q' hq'
      have e2 : (m2.var q'.child).familyClique = (m1.var q'.child).familyClique := by rw [hset]; split <;> simp_all
      rw [e2]
      exact hkn q' hq'
  · have hd : 1 < q.table.dim := by rw [hdim]; have := List.length_pos_iff.mpr hp; omega
    rw [if_pos hd]
    have hpar1 : (m1.var q.child).parents = q.parents := by rw [hsame.parents, h.parents, hpar]
    have hpar0 : (m.var q.child).parents = q.parents := by rw [h.parents, hpar]
    rw [hpar0] at f3
    obtain ⟨cl, hcl⟩ : ∃ cl, m.tree.cliques[c]? = some cl := ⟨_, List.getElem?_eq_getElem f2⟩
    rw [JTree.varsOf_eq hcl] at f3
    have hso : cl.vars.Pairwise (· < ·) := by
      have h1 : c < t0.cliques.length := by rw [← h.frame.len]; exact f2
      have h2 := hsorted c _ (List.getElem?_eq_getElem h1)
      have h3 := h.frame.vars c
      rw [JTree.varsOf_eq hcl, JTree.varsOf_eq (List.getElem?_eq_getElem h1)] at h3
      rw [h3]; exact h2
    obtain ⟨t', e1, e2, e3, e4, e5⟩ := initClique_eq hf hq (m := m1) (by rw [htree]; exact h.typed) (c := c) (cl := cl) (by rw [htree]; exact hcl) hso
      (by
        intro v hv
        rcases hv with rfl | hv
        · exact f3 _ (by simp)
        · exact f3 _ (by simp [hv])) hpar1
    rw [htree] at e2 e4 e5
    rw [e1, ok_bind]
    simp only [ne_eq, not_true, if_false]
    refine ⟨_, rfl, ?_⟩
    have hhome : ∀ d, home t0 q d = decide (d = c) := by
      intro d
      unfold home
      rw [hpar0, h.frame.find] at f1
      rw [f1]
      show (c == d) = _
      rw [Bool.eq_iff_iff, beq_iff_eq, decide_eq_true_eq]
      exact eq_comm
    refine ⟨h.frame.trans e2, e3, ?_, ?_, ?_, ?_, ?_, ?_, ?_, ?_, ?_, ?_, ?_, ?_, hvl, hin, hkn⟩
    · intro d x; rw [e4, e5, h.same]
    · intro d x; rw [e5]; split
      · exact mul_nonneg (h.nonneg d x) (entry_nonneg hf hq x)
      · exact h.nonneg d x
    · intro x
      rw [List.filter_append, List.map_append, List.prod_append, ← h.prod, e2.len]
      rw [prod_at (b := c) f2 (fun d => m.tree.origOf f.card d x) (fun d => t'.origOf f.card d x)
        (fun d hd => by rw [e5, if_neg hd]) (u := f.entry q (wrap f.card x)) (by rw [e5, if_pos rfl])]
      simp [hp]
    · intro d x
      rw [e5, List.filter_append, List.map_append, List.prod_append, ← h.parts]
      by_cases e : d = c
      · simp [e, hp, hhome]
      · simp [e, hp, hhome]
    · intro v; exact (hsame.card v).trans (h.card v)
    · intro v; exact (hsame.parents v).trans (h.parents v)
    · intro v; exact (hmv v).1.trans (h.lik v)
    · intro v; exact (hmv v).2.1.trans (h.entered v)
    · intro v; exact (hsame.old v).trans (h.old v)
    · intro v; exact (hsame.out v).trans (h.out v)
    · intro v
      rw [find_append hn]
      show (m1.var v).prior = _
      rw [hsame.prior]
      by_cases e : v = q.child
      · rw [if_pos e]
        simp only [hp, if_false]
        have := h.prior v
        have hnone : done.find? (fun q => decide (q.child = v)) = none := by
          rw [List.find?_eq_none]
          intro q' hq'
          rw [List.map_append, List.nodup_append] at hn
          have := hn.2.2 q'.child (List.mem_map.mpr ⟨q', hq', rfl⟩) q.child (by simp)
          simpa [e] using this
        rw [hnone] at this
        exact this
      · rw [if_neg e]; exact h.prior v
    · intro v hv
      obtain ⟨d, g1, g2, g3, g4⟩ := hfam1 v hv
      rw [htree] at g1 g2 g3
      refine ⟨d, ?_, ?_, ?_, g4⟩
      · show t'.findClique _ = _
        rw [e2.find]; exact g1
      · show d < t'.cliques.length
        rw [e2.len]; exact g2
      · intro u hu
        show u ∈ t'.varsOf d
        rw [e2.vars]; exact g3 u hu

theorem initTables_eq {K : Type} [Field K] [LinearOrder K] [IsStrictOrderedRing K] {f : NetFile K} (hf : f.Valid) {t0 : JTree K} {var0 : Nat → VarRec K}
    (hsorted : ∀ (c : Nat) cl, t0.cliques[c]? = some cl → cl.vars.Pairwise (· < ·))
    (hcard : ∀ v, (var0 v).card = f.card v) (hpar : ∀ q ∈ f.pots, (var0 q.child).parents = q.parents) :
    ∀ (qs done : List (Parsed K)) (m : Model K), done ++ qs = f.pots → Stage f t0 var0 done m →
      ∃ m', qs.foldlM NetFile.initTable (some m) = ok (some m') ∧ Stage f t0 var0 f.pots m' := by
  intro qs
  induction qs with
  | nil => intro done m hd h; rw [List.append_nil] at hd; subst hd; exact ⟨m, rfl, h⟩
  | cons q qs ih =>
    intro done m hd h
    have hq : q ∈ f.pots := by rw [← hd]; simp
    have hn : ((done ++ [q]).map (fun q => q.child)).Nodup := by
      have := hf.distinct
      rw [← hd, show done ++ q :: qs = (done ++ [q]) ++ qs by simp, List.map_append, List.nodup_append] at this
      exact this.1
    obtain ⟨m1, a1, a2⟩ := initTable_eq hf hsorted hcard hq (hpar q hq) hn h
    obtain ⟨m', b1, b2⟩ := ih (done ++ [q]) m1 (by simpa using hd) a2
    refine ⟨m', ?_, b2⟩
    rw [List.foldlM_cons, a1]
    exact b1

/-! ### the whole construction -/

theorem parentsIn_eq {f : NetFile K} (hf : f.Fits) {q : Parsed K} (hq : q ∈ f.pots) : parentsIn f.pots q.child = q.parents := by
  unfold parentsIn
  cases h : f.pots.find? (fun q' => decide (q'.child = q.child)) with
  | none =>
    rw [List.find?_eq_none] at h
    exact absurd (by simp) (h q hq)
  | some q' =>
    have h1 := List.find?_some h
    have h2 := List.mem_of_find?_eq_some h
    simp only [decide_eq_true_eq] at h1
    rw [List.inj_on_of_nodup_map hf.distinct h2 hq h1]

theorem find_child {f : NetFile K} (hf : f.Fits) {q : Parsed K} (hq : q ∈ f.pots) :
    f.pots.find? (fun q' => decide (q'.child = q.child)) = some q := by
  cases h : f.pots.find? (fun q' => decide (q'.child = q.child)) with
  | none =>
    rw [List.find?_eq_none] at h
    exact absurd (by simp) (h q hq)
  | some q' =>
    have h1 := List.find?_some h
    have h2 := List.mem_of_find?_eq_some h
    simp only [decide_eq_true_eq] at h1
    rw [List.inj_on_of_nodup_map hf.distinct h2 hq h1]

/-- parents according to the file -/
def NetFile.parentsOf (f : NetFile K) (v : Nat) : List Nat := if v ∈ f.pots.map (fun q => q.child) then parentsIn f.pots v else []

theorem parentsOf_child {f : NetFile K} (hf : f.Fits) {q : Parsed K} (hq : q ∈ f.pots) : NetFile.parentsOf f q.child = q.parents := by
  unfold NetFile.parentsOf
  rw [if_pos (List.mem_map.mpr ⟨q, hq, rfl⟩), parentsIn_eq hf hq]

theorem mem_parentsOf {f : NetFile K} (hf : f.Fits) {u v : Nat} : u ∈ NetFile.parentsOf f v ↔ ∃ q ∈ f.pots, q.child = v ∧ u ∈ q.parents := by
  constructor
  · intro h
    by_cases hv : v ∈ f.pots.map (fun q => q.child)
    · obtain ⟨q, hq, rfl⟩ := List.mem_map.mp hv
      rw [parentsOf_child hf hq] at h
      exact ⟨q, hq, rfl, h⟩
    · unfold NetFile.parentsOf at h
      rw [if_neg hv] at h
      cases h
  · rintro ⟨q, hq, rfl, h⟩
    rw [parentsOf_child hf hq]; exact h

theorem parentsOf_nil {f : NetFile K} (hf : f.Fits) {v : Nat} : NetFile.parentsOf f v = [] ↔ ∀ q ∈ f.pots, q.child = v → q.parents = [] := by
  constructor
  · rintro h q hq rfl
    rw [← parentsOf_child hf hq]; exact h
  · intro h
    rw [List.eq_nil_iff_forall_not_mem]
    intro u hu
    obtain ⟨q, hq, e, hu⟩ := (mem_parentsOf hf).mp hu
    rw [h q hq e] at hu
    cases hu

/-- the records of the variables before the tree is made -/
def NetFile.record (f : NetFile K) (v : Nat) : VarRec K :=
  { card := f.card v, parents := NetFile.parentsOf f v, likelihood := List.replicate (f.card v) 1, prior := none, priorEntered := false,
    familyClique := none, oldOutgoing := decide ((∃ u ∈ f.vars, v ∈ NetFile.parentsOf f u) ∧ f.next v ≠ none),
    outgoing := decide (∃ u ∈ f.vars, ∃ p ∈ NetFile.parentsOf f u, f.next p = some v) }

/-- the arrows of the network -/
def NetFile.arrows (f : NetFile K) : List (Nat × Nat) := f.pots.flatMap (fun q => q.parents.map (fun u => (u, q.child)))

theorem mem_arrows {f : NetFile K} {u v : Nat} : (u, v) ∈ NetFile.arrows f ↔ ∃ q ∈ f.pots, q.child = v ∧ u ∈ q.parents := by
  unfold NetFile.arrows
  simp only [List.mem_flatMap, List.mem_map, Prod.mk.injEq]
  constructor
  · rintro ⟨q, hq, a, ha, rfl, rfl⟩; exact ⟨q, hq, rfl, ha⟩
  · rintro ⟨q, hq, rfl, ha⟩; exact ⟨q, hq, u, ha, rfl, rfl⟩

theorem toGraph_eq {f : NetFile K} (hf : f.Fits) :
    ∃ g var, NetFile.toGraph f = ok (some (g, var)) ∧ Graph.Holds g f.vars.length f.vars (NetFile.arrows f) ∧
      NetFile.interfaces f var = NetFile.record f := by
  have hnd : f.vars.Nodup := hf.sorted.imp ne_of_lt
  obtain ⟨g0, a1, a2⟩ := addNodes_eq (n := f.vars.length) f.vars [] (Graph.new f.vars.length) (Graph.Holds.new _) (by simpa using hnd) hf.ids (by simp)
  obtain ⟨g, var, b1, b2, b3⟩ := addTables_eq f.pots [] g0 (fun v => VarRec.new (f.card v)) (by simpa using a2) (by
    intro q hq
    refine ⟨?_, hf.child q hq, fun u hu => ((hf.parents q hq).2 u hu).1⟩
    unfold Potential.dim
    rw [(hf.shape q hq).1, List.length_map, family_length hf hq]) hf.distinct (fun q _ => rfl)
  have hrec : ∀ v, var v = { VarRec.new (f.card v) with parents := NetFile.parentsOf f v } := by
    intro v
    rw [b3]
    rfl
  refine ⟨g, var, ?_, by simpa [NetFile.arrows] using b2, ?_⟩
  · unfold NetFile.toGraph
    cases hp : f.pots with
    | nil => exact absurd hp hf.tables
    | cons q qs =>
      simp only
      rw [a1, ok_bind]
      simp only
      rw [← hp]; exact b1
  · funext v
    rw [interfaces_eq]
    have hpar : ∀ u, (var u).parents = NetFile.parentsOf f u := by intro u; rw [hrec]
    simp only [hpar]
    rw [hrec v]
    simp [NetFile.record, VarRec.new]

/-- The variables are neighbours in the undirected graph. -/
def NetFile.Near (f : NetFile K) (u v : Nat) : Prop :=
  Linked (NetFile.arrows f) (fun v => (NetFile.record f v).oldOutgoing) (fun v => (NetFile.record f v).outgoing) f.vars u v

theorem build_entire {K : Type} [Field K] [LinearOrder K] [IsStrictOrderedRing K] (ptr : Nat) {f : NetFile K} (hf : f.Valid) :
    ∃ m, NetFile.build ptr f = ok (some m) ∧ Model.Holds f.net m (World.fresh f.net) ∧
      (∀ q ∈ f.pots, ∃ c, (m.var q.child).familyClique = some c) ∧
      (∀ v, (m.var v).parents = NetFile.parentsOf f v ∧ (m.var v).outgoing = (NetFile.record f v).outgoing) ∧
      (∃ c, c < m.tree.cliques.length ∧ ∀ v ∈ f.vars, (m.var v).outgoing = true → v ∈ m.tree.varsOf c) ∧
      (∃ c, c < m.tree.cliques.length ∧ ∀ v ∈ f.vars, (m.var v).oldOutgoing = true → v ∈ m.tree.varsOf c) ∧
      (∀ v ∈ f.vars, ∃ c, m.tree.findClique (NetFile.parentsOf f v ++ [v]) = ok (some c) ∧ c < m.tree.cliques.length ∧
        ∀ u ∈ NetFile.parentsOf f v ++ [v], u ∈ m.tree.varsOf c) ∧
      (∀ c, c < m.tree.cliques.length → (m.tree.varsOf c).Pairwise (· < ·)) ∧
      (∀ c x, m.tree.origOf f.card c x =
        ((f.pots.filter (fun q => decide (q.parents ≠ []) && home m.tree q c)).map (fun q => f.entry q (wrap f.card x))).prod) ∧
      (∀ c c', c < m.tree.cliques.length → c' < m.tree.cliques.length → (∀ v ∈ m.tree.varsOf c, v ∈ m.tree.varsOf c') → c = c') ∧
      (∀ Q : List Nat, (∀ a ∈ Q, a ∈ f.vars) → (∀ a ∈ Q, ∀ b ∈ Q, a ≠ b → NetFile.Near f a b) → ∃ c, c < m.tree.cliques.length ∧ ∀ a ∈ Q, a ∈ m.tree.varsOf c) ∧
      (∃ v ∈ f.vars, ∃ c, c < m.tree.cliques.length ∧ ∀ u ∈ m.tree.varsOf c, u = v ∨ NetFile.Near f v u) := by
  have hnd : f.vars.Nodup := hf.sorted.imp ne_of_lt
  obtain ⟨g, var, g1, g2, g3⟩ := toGraph_eq hf.toFits
  have hne : f.vars ≠ [] := by
    intro h
    obtain ⟨q, hq⟩ := List.exists_mem_of_ne_nil _ hf.tables
    have := hf.child q hq
    rw [h] at this; cases this
  obtain ⟨code, L, t, t1, t2, t3, t4, t5, t6, t7, t8, t9, t10⟩ := graphToTree_spec (K := K) ptr (clusterPrimaryCost (isParent (NetFile.record f)))
    (clusterSecondaryCost f.card) f.card (fun v => (NetFile.record f v).oldOutgoing) (fun v => (NetFile.record f v).outgoing) g2 rfl hne (by
      intro a ha
      obtain ⟨q, hq, e, hu⟩ := mem_arrows.mp ha
      exact ((hf.parents q hq).2 a hu).2 e.symm) (by
      rintro ⟨u, v⟩ he
      obtain ⟨q, hq, e, hu⟩ := mem_arrows.mp he
      exact ((hf.parents q hq).2 u hu).1)
  have hpos : ∀ (c : Nat) cl, t.cliques[c]? = some cl → ∀ v ∈ cl.vars, 0 < f.card v := fun c cl hcl v hv => hf.states v ((t4 c cl hcl).2.1 v hv)
  have hnodup : ∀ c, (t.varsOf c).Nodup := by
    intro c
    cases h : t.cliques[c]? with
    | none => unfold JTree.varsOf; rw [h]; exact List.nodup_nil
    | some cl => rw [JTree.varsOf_eq h]; exact (t4 c cl h).1.imp ne_of_lt
  have hvpos : ∀ c, ∀ v ∈ t.varsOf c, 0 < f.card v := by
    intro c v hv
    cases h : t.cliques[c]? with
    | none => unfold JTree.varsOf at hv; rw [h] at hv; cases hv
    | some cl => rw [JTree.varsOf_eq h] at hv; exact hpos c cl h v hv
  have hsep : ∀ (s : Nat) sp, t.sepsets[s]? = some sp → ∃ e ∈ L, sp = mkSep f.card t.varsOf e := by
    intro s sp hs
    rw [t3, List.getElem?_map, Option.map_eq_some_iff] at hs
    obtain ⟨e, h1, h2⟩ := hs
    exact ⟨e, by simpa using List.mem_of_getElem? h1, h2.symm⟩
  have htyped : t.Typed f.card := by
    refine ⟨?_, ?_⟩
    · intro c cl hcl
      obtain ⟨h1, h2, h3, h4⟩ := t4 c cl hcl
      refine ⟨h1.imp ne_of_lt, ?_, ?_⟩
      · rw [h3]; exact ones_on (hpos c cl hcl)
      · rw [h4]; exact ones_on (hpos c cl hcl)
    · intro s sp hs
      obtain ⟨e, _, rfl⟩ := hsep s sp hs
      have hp : ∀ v ∈ (t.varsOf e.1).filter (· ∈ t.varsOf e.2), 0 < f.card v := fun v hv => hvpos e.1 v (List.mem_filter.mp hv).1
      refine ⟨(hnodup e.1).filter _, ones_on hp, ones_on hp, List.filter_subset_self _, ?_⟩
      intro v hv
      exact of_decide_eq_true (List.mem_filter.mp hv).2
  have horig : ∀ c x, t.origOf f.card c x = 1 := by
    intro c x
    unfold JTree.origOf
    cases h : t.cliques[c]? with
    | none => rfl
    | some cl => simp only; rw [(t4 c cl h).2.2.2]; exact sem_ones (hpos c cl h) x
  have hphi : ∀ c x, t.phi f.card c x = 1 := by
    intro c x
    unfold JTree.phi
    cases h : t.cliques[c]? with
    | none => rfl
    | some cl => simp only; rw [(t4 c cl h).2.2.1]; exact sem_ones (hpos c cl h) x
  have hpsi : ∀ s x, t.psi f.card s x = 1 := by
    intro s x
    unfold JTree.psi
    cases h : t.sepsets[s]? with
    | none => rfl
    | some sp =>
      obtain ⟨e, _, rfl⟩ := hsep s sp h
      exact sem_ones (fun v hv => hvpos e.1 v (List.mem_filter.mp hv).1) x
  obtain ⟨m0, hm0⟩ : ∃ m0 : Model K, m0 = { tree := t, var := NetFile.record f, varList := f.vars, independent := [] } := ⟨_, rfl⟩
  have hcov : ∀ v ∈ f.vars, ∃ c, t.findClique (NetFile.parentsOf f v ++ [v]) = ok (some c) ∧ c < t.cliques.length ∧
      ∀ u ∈ NetFile.parentsOf f v ++ [v], u ∈ t.varsOf c := by
    intro v hv
    obtain ⟨c, h1, h2, h3⟩ := t5 v hv
    refine findClique_some ⟨c, h1, ?_⟩
    intro u hu
    rcases List.mem_append.mp hu with hu | hu
    · exact h3 u (mem_arrows.mpr ((mem_parentsOf hf).mp hu))
    · rw [List.mem_singleton.mp hu]; exact h2
  have hst0 : Stage f t (NetFile.record f) [] m0 := by
    rw [hm0]
    refine ⟨⟨rfl, rfl⟩, htyped, ?_, ?_, ?_, ?_, fun _ => rfl, fun _ => rfl, fun _ => rfl, fun _ => rfl, fun _ => rfl, fun _ => rfl, fun _ => rfl, ?_, rfl, rfl, by simp⟩
    · intro c x; show t.phi _ c x = t.origOf _ c x; rw [hphi, horig]
    · intro c x; show 0 ≤ t.origOf _ c x; rw [horig]; exact zero_le_one
    · intro x; show ∏ c ∈ Finset.range t.cliques.length, t.origOf f.card c x = _
      simp [horig]
    · intro c x; show t.origOf f.card c x = _
      simp [horig]
    · intro v hv
      obtain ⟨c, h1, h2, h3⟩ := hcov v hv
      exact ⟨c, h1, h2, h3, Or.inl rfl⟩
  obtain ⟨m1, i1, i2⟩ := initTables_eq hf (fun c cl h => (t4 c cl h).1) (fun _ => rfl) (fun q hq => parentsOf_child hf hq) f.pots [] m0 rfl hst0
  have hroots : f.net.roots = f.vars.filter (fun v => (NetFile.parentsOf f v).isEmpty) := by
    show f.vars.filter _ = _
    apply List.filter_congr
    intro v _
    rw [Bool.eq_iff_iff, decide_eq_true_eq, List.isEmpty_iff, parentsOf_nil hf]
  have hroot : ∀ v ∈ f.net.roots, v ∈ f.vars ∧ NetFile.parentsOf f v = [] := by
    intro v hv
    rw [hroots, List.mem_filter, List.isEmpty_iff] at hv
    exact hv
  obtain ⟨m, hm⟩ : ∃ m, m = NetFile.complete m1 := ⟨_, rfl⟩
  have hmt : m.tree = m1.tree := by rw [hm]; rfl
  have hmv : ∀ v, (m.var v).card = f.card v ∧ (m.var v).parents = NetFile.parentsOf f v ∧ (m.var v).likelihood = List.replicate (f.card v) 1 ∧
      (m.var v).priorEntered = false ∧ (m.var v).oldOutgoing = (NetFile.record f v).oldOutgoing ∧ (m.var v).outgoing = (NetFile.record f v).outgoing ∧
      (m.var v).familyClique = (m1.var v).familyClique := by
    intro v
    rw [hm]
    unfold NetFile.complete
    simp only
    split
    · exact ⟨i2.card v, i2.parents v, i2.lik v, i2.entered v, i2.old v, i2.out v, rfl⟩
    · exact ⟨i2.card v, i2.parents v, i2.lik v, i2.entered v, i2.old v, i2.out v, rfl⟩
  have hold : ∀ v, (NetFile.record f v).oldOutgoing = f.net.oldOut v := by
    intro v
    show decide _ = decide _
    rw [Bool.eq_iff_iff, decide_eq_true_eq, decide_eq_true_eq]
    constructor
    · rintro ⟨⟨u, _, h1⟩, h2⟩
      obtain ⟨q, hq, _, h3⟩ := (mem_parentsOf hf).mp h1
      exact ⟨h2, q, hq, h3⟩
    · rintro ⟨h1, q, hq, h2⟩
      exact ⟨⟨q.child, hf.child q hq, (mem_parentsOf hf).mpr ⟨q, hq, rfl, h2⟩⟩, h1⟩
  have hprior : ∀ v ∈ f.net.roots, (m.var v).prior = some (f.net.prior v) ∧ (f.net.prior v).length = f.card v ∧ ∀ a ∈ f.net.prior v, 0 ≤ a := by
    intro v hv
    obtain ⟨hv1, hv2⟩ := hroot v hv
    have hp1 := i2.prior v
    have hpn : f.net.prior v = match f.pots.find? (fun q => decide (q.child = v)) with
      | some q => q.table.data
      | none => List.replicate (f.card v) 0 := rfl
    cases h : f.pots.find? (fun q => decide (q.child = v)) with
    | none =>
      rw [h] at hp1 hpn
      simp only at hp1 hpn
      rw [hpn]
      refine ⟨?_, by simp, ?_⟩
      · rw [hm]
        unfold NetFile.complete
        simp only
        rw [if_pos ⟨by rw [i2.varList]; exact hv1, by rw [i2.parents]; exact hv2, hp1⟩]
        simp only
        rw [i2.card]; rfl
      · intro a ha; rw [(List.mem_replicate.mp ha).2]
    | some q =>
      rw [h] at hp1 hpn
      have hqm := List.mem_of_find?_eq_some h
      have hqc := List.find?_some h
      simp only [decide_eq_true_eq] at hqc
      have hqp : q.parents = [] := by rw [← parentsOf_child hf hqm, hqc]; exact hv2
      simp only [hqp, if_true] at hp1 hpn
      rw [hpn]
      refine ⟨?_, ?_, hf.nonneg q hqm⟩
      · rw [hm]
        unfold NetFile.complete
        simp only
        rw [if_neg (by rw [hp1]; simp)]
        exact hp1
      · have hlen := family_length hf hqm
        have hfl : f.family q = [q.child] := by
          have h1 : q.child ∈ f.family q := by unfold NetFile.family; simp [hf.child q hqm]
          rw [hqp] at hlen
          obtain ⟨a, ha⟩ := List.length_eq_one_iff.mp hlen
          rw [ha] at h1 ⊢
          rw [List.mem_singleton.mp h1]
        obtain ⟨s1, s2⟩ := hf.shape q hqm
        rw [s2, s1, hfl, ← hqc]; simp
  have hpsi' : ∀ s x, m.tree.psi f.card s x = 1 := by
    intro s x
    rw [hmt]
    unfold JTree.psi
    rw [i2.frame.sep]
    exact hpsi s x
  have hfresh : ∀ x, repd f.net (World.fresh f.net) x = f.net.tables (wrap f.card x) := by
    intro x
    unfold repd jointWeight World.fresh
    have h1 : (f.net.roots.map (fun _ => (1 : K))).prod = 1 := by simp
    have h2 : (f.net.vars.map (fun v => (List.replicate (f.net.card v) (1 : K)).getD (wrap f.net.card x v) 0)).prod = 1 := by
      apply List.prod_eq_one
      intro a ha
      obtain ⟨v, hv, rfl⟩ := List.mem_map.mp ha
      have : wrap f.net.card x v < f.net.card v := Nat.mod_lt _ (hf.states v hv)
      rw [List.getD_eq_getElem _ _ (by simpa using this)]
      simp
    simp only [Bool.false_eq_true, if_false]
    rw [h1, h2, mul_one, mul_one]
    rfl
  have horigs : ∀ x, ∏ c ∈ Finset.range m.tree.cliques.length, m.tree.origOf f.card c x = f.net.tables (wrap f.card x) := by
    intro x; rw [hmt]; exact i2.prod x
  have hcover : ∀ v, v ∈ f.vars ↔ ∃ c, c < m.tree.cliques.length ∧ v ∈ m.tree.varsOf c := by
    intro v
    rw [hmt, i2.frame.len]
    constructor
    · intro hv
      obtain ⟨c, h1, h2, _⟩ := t5 v hv
      exact ⟨c, h1, by rw [i2.frame.vars]; exact h2⟩
    · rintro ⟨c, h1, h2⟩
      rw [i2.frame.vars, JTree.varsOf_eq (List.getElem?_eq_getElem h1)] at h2
      exact (t4 c _ (List.getElem?_eq_getElem h1)).2.1 v h2
  have hsound : Model.Sound f.net m := by
    refine ⟨⟨L, ?_⟩, ?_, ⟨?_, ?_⟩, ?_, fun v => (hmv v).1, ?_, ?_, hnd, hnd.filter _, fun v hv => (hroot v hv).1, hcover, horigs, hprior,
      fun v => (hmv v).2.2.2.2.1.trans (hold v), ?_⟩
    · rw [hmt]
      exact t2.frame i2.frame.shape (by rw [i2.frame.sep]) i2.frame.vars
    · rw [hmt]; exact i2.typed
    · intro c x; rw [hmt]; show 0 ≤ m1.tree.phi f.card c x; rw [i2.same]; exact i2.nonneg c x
    · intro s x; show 0 ≤ m.tree.psi f.card s x; rw [hpsi']; exact zero_le_one
    · intro c x; rw [hmt]; exact i2.nonneg c x
    · rw [hm]; exact i2.varList
    · rw [hroots, hm]
      show m1.varList.filter _ = _
      rw [i2.varList]
      apply List.filter_congr
      intro v _
      rw [i2.parents]; rfl
    · intro v hv
      obtain ⟨c, h1, h2, h3, h4⟩ := i2.fam v hv
      rw [hmt, (hmv v).2.1, (hmv v).2.2.2.2.2.2]
      rw [i2.parents] at h1 h3
      exact ⟨c, h1, h2, h3 v (by simp), h4⟩
  have htold : Model.Told f.net m (World.fresh f.net) := by
    refine ⟨?_, fun v _ => (hmv v).2.2.2.1, ?_⟩
    · intro v _
      refine ⟨(hmv v).2.2.1, by simp [World.fresh], ?_⟩
      intro a ha
      rw [(List.mem_replicate.mp ha).2]; exact zero_le_one
    · intro v _ h; exact absurd h (by simp [World.fresh])
  have hreps : m.Reps f.net.card (repd f.net (World.fresh f.net)) := by
    have hpo : ∀ x, ∏ c ∈ Finset.range m.tree.cliques.length, m.tree.phi f.card c x = repd f.net (World.fresh f.net) x := by
      intro x
      rw [hfresh, ← horigs]
      refine Finset.prod_congr rfl fun c _ => ?_
      rw [hmt]; exact i2.same c x
    refine ⟨?_, ?_, ?_⟩
    · intro x
      show ∏ c ∈ Finset.range m.tree.cliques.length, m.tree.phi f.card c x = _ * ∏ s ∈ Finset.range m.tree.sepsets.length, m.tree.psi f.card s x
      rw [hpo]
      simp [hpsi']
    · intro c hc x hx
      rw [← hpo]
      exact Finset.prod_eq_zero (Finset.mem_range.mpr hc) hx
    · intro s _ x hx
      have : m.tree.psi f.card s x = 0 := hx
      rw [hpsi'] at this
      exact absurd this one_ne_zero
  refine ⟨m, ?_, ⟨hsound, htold, hreps⟩, fun q hq => by rw [(hmv q.child).2.2.2.2.2.2]; exact i2.known q hq,
    fun v => ⟨(hmv v).2.1, (hmv v).2.2.2.2.2.1⟩, ?_, ?_, ?_, ?_, ?_, ?_, ?_, ?_⟩
  · unfold NetFile.build
    rw [g1, ok_bind]
    simp only
    rw [g3, t1, ok_bind]
    simp only
    rw [← hm0, i1, ok_bind]
    simp only
    rw [hm]
  · obtain ⟨c, h1, h2⟩ := t6
    refine ⟨c, by rw [hmt, i2.frame.len]; exact h1, ?_⟩
    intro v hv ho
    rw [hmt, i2.frame.vars]
    exact h2 v hv (by rw [← (hmv v).2.2.2.2.2.1]; exact ho)
  · obtain ⟨c, h1, h2⟩ := t7
    refine ⟨c, by rw [hmt, i2.frame.len]; exact h1, ?_⟩
    intro v hv ho
    rw [hmt, i2.frame.vars]
    exact h2 v hv (by rw [← (hmv v).2.2.2.2.1]; exact ho)
  · intro v hv
    obtain ⟨c, h1, h2, h3⟩ := hcov v hv
    rw [hmt]
    exact ⟨c, by rw [i2.frame.find]; exact h1, by rw [i2.frame.len]; exact h2, fun u hu => by rw [i2.frame.vars]; exact h3 u hu⟩
  · intro c hc
    rw [hmt, i2.frame.len] at hc
    rw [hmt, i2.frame.vars, JTree.varsOf_eq (List.getElem?_eq_getElem hc)]
    exact (t4 c _ (List.getElem?_eq_getElem hc)).1
  · intro c x
    have : home m.tree = home (K := K) t := by
      funext q d
      unfold home
      rw [hmt, i2.frame.find]
    rw [this, hmt]
    exact i2.parts c x
  · intro c c' hc hc' hs
    rw [hmt, i2.frame.len] at hc hc'
    simp only [hmt, i2.frame.vars] at hs
    exact t8 c c' hc hc' hs
  · intro Q h1 h2
    rw [hmt, i2.frame.len]
    simp only [i2.frame.vars]
    exact t9 Q h1 h2
  · rw [hmt, i2.frame.len]
    simp only [i2.frame.vars]
    exact t10

theorem build_whole {K : Type} [Field K] [LinearOrder K] [IsStrictOrderedRing K] (ptr : Nat) {f : NetFile K} (hf : f.Valid) :
    ∃ m, NetFile.build ptr f = ok (some m) ∧ Model.Holds f.net m (World.fresh f.net) ∧
      (∀ v, (m.var v).parents = NetFile.parentsOf f v ∧ (m.var v).outgoing = (NetFile.record f v).outgoing) ∧
      (∃ c, c < m.tree.cliques.length ∧ ∀ v ∈ f.vars, (m.var v).outgoing = true → v ∈ m.tree.varsOf c) ∧
      (∃ c, c < m.tree.cliques.length ∧ ∀ v ∈ f.vars, (m.var v).oldOutgoing = true → v ∈ m.tree.varsOf c) ∧
      (∀ v ∈ f.vars, ∃ c, m.tree.findClique (NetFile.parentsOf f v ++ [v]) = ok (some c) ∧ c < m.tree.cliques.length ∧
        ∀ u ∈ NetFile.parentsOf f v ++ [v], u ∈ m.tree.varsOf c) ∧
      (∀ c, c < m.tree.cliques.length → (m.tree.varsOf c).Pairwise (· < ·)) ∧
      (∀ c x, m.tree.origOf f.card c x =
        ((f.pots.filter (fun q => decide (q.parents ≠ []) && home m.tree q c)).map (fun q => f.entry q (wrap f.card x))).prod) ∧
      (∀ c c', c < m.tree.cliques.length → c' < m.tree.cliques.length → (∀ v ∈ m.tree.varsOf c, v ∈ m.tree.varsOf c') → c = c') ∧
      (∀ Q : List Nat, (∀ a ∈ Q, a ∈ f.vars) → (∀ a ∈ Q, ∀ b ∈ Q, a ≠ b → NetFile.Near f a b) → ∃ c, c < m.tree.cliques.length ∧ ∀ a ∈ Q, a ∈ m.tree.varsOf c) ∧
      (∃ v ∈ f.vars, ∃ c, c < m.tree.cliques.length ∧ ∀ u ∈ m.tree.varsOf c, u = v ∨ NetFile.Near f v u) := by
  obtain ⟨m, h1, h2, _, h3⟩ := build_entire ptr hf
  exact ⟨m, h1, h2, h3⟩

theorem build_parts {K : Type} [Field K] [LinearOrder K] [IsStrictOrderedRing K] (ptr : Nat) {f : NetFile K} (hf : f.Valid) :
    ∃ m, NetFile.build ptr f = ok (some m) ∧ Model.Holds f.net m (World.fresh f.net) ∧
      (∀ v, (m.var v).parents = NetFile.parentsOf f v ∧ (m.var v).outgoing = (NetFile.record f v).outgoing) ∧
      (∃ c, c < m.tree.cliques.length ∧ ∀ v ∈ f.vars, (m.var v).outgoing = true → v ∈ m.tree.varsOf c) ∧
      (∃ c, c < m.tree.cliques.length ∧ ∀ v ∈ f.vars, (m.var v).oldOutgoing = true → v ∈ m.tree.varsOf c) ∧
      (∀ v ∈ f.vars, ∃ c, m.tree.findClique (NetFile.parentsOf f v ++ [v]) = ok (some c) ∧ c < m.tree.cliques.length ∧
        ∀ u ∈ NetFile.parentsOf f v ++ [v], u ∈ m.tree.varsOf c) ∧
      (∀ c, c < m.tree.cliques.length → (m.tree.varsOf c).Pairwise (· < ·)) ∧
      (∀ c x, m.tree.origOf f.card c x =
        ((f.pots.filter (fun q => decide (q.parents ≠ []) && home m.tree q c)).map (fun q => f.entry q (wrap f.card x))).prod) := by
  obtain ⟨m, h1, h2, h3, h4, h5, h6, h7, h8, _, _, _⟩ := build_whole ptr hf
  exact ⟨m, h1, h2, h3, h4, h5, h6, h7, h8⟩

theorem build_spec {K : Type} [Field K] [LinearOrder K] [IsStrictOrderedRing K] (ptr : Nat) {f : NetFile K} (hf : f.Valid) :
    ∃ m, NetFile.build ptr f = ok (some m) ∧ Model.Holds f.net m (World.fresh f.net) ∧
      (∀ v, (m.var v).parents = NetFile.parentsOf f v ∧ (m.var v).outgoing = (NetFile.record f v).outgoing) ∧
      (∃ c, c < m.tree.cliques.length ∧ ∀ v ∈ f.vars, (m.var v).outgoing = true → v ∈ m.tree.varsOf c) ∧
      (∃ c, c < m.tree.cliques.length ∧ ∀ v ∈ f.vars, (m.var v).oldOutgoing = true → v ∈ m.tree.varsOf c) ∧
      (∀ v ∈ f.vars, ∃ c, m.tree.findClique (NetFile.parentsOf f v ++ [v]) = ok (some c) ∧ c < m.tree.cliques.length ∧
        ∀ u ∈ NetFile.parentsOf f v ++ [v], u ∈ m.tree.varsOf c) ∧
      (∀ c, c < m.tree.cliques.length → (m.tree.varsOf c).Pairwise (· < ·)) := by
  obtain ⟨m, h1, h2, h3, h4, h5, h6, h7, _⟩ := build_parts ptr hf
  exact ⟨m, h1, h2, h3, h4, h5, h6, h7⟩

end Nip
