import Verif.JointLemmas
import Verif.ProgramsLemmas
import Verif.Props.EmLoop
import Verif.Write

/-! # Lemmas for `nipconvert` and `niptrain` -/

namespace Nip

open Res Spec

set_option linter.unusedSectionVars false

/-! ## `nipconvert` -/

/-- the union begins with the variables of the first series -/
theorem observedUnion_first (ts : TimeSeries) (rest : List TimeSeries) (h : ∀ t ∈ ts :: rest, t.WellFormed ∧ t.observed.Nodup) :
    ∃ more : List Nat, observedUnion (ts :: rest) = ok ((ts.observed ++ more).map some, (ts.observed ++ more).length) := by
  have htake : ∀ t ∈ ts :: rest, t.observed.take ((t.numVars : Int) - t.numHidden).toNat = t.observed := by
    intro t ht
    rw [(h t ht).1.hidden]
    simp
  have hfm : ∀ U : List Nat, (U.map some).filterMap id = U := by
    intro U
    rw [List.filterMap_map, Function.id_comp, List.filterMap_some]
  unfold observedUnion
  simp only
  rw [htake ts (List.mem_cons_self ..), variableUnion_eq _ _ (h ts (List.mem_cons_self ..)).2 List.nodup_nil, ok_bind]
  have key : ∀ l : List TimeSeries, (∀ t ∈ l, t.observed.Nodup ∧ t.observed.take ((t.numVars : Int) - t.numHidden).toNat = t.observed) →
      ∀ U : List Nat, U.Nodup → ∃ W : List Nat, l.foldlM (fun (st : List (Option Nat) × Nat) t =>
        variableUnion (st.1.filterMap id) (t.observed.take ((t.numVars : Int) - t.numHidden).toNat)) (U.map some, U.length) =
          ok ((U ++ W).map some, (U ++ W).length) := by
    intro l
    induction l with
    | nil => intro _ U _; exact ⟨[], by rw [List.append_nil]; rfl⟩
    | cons t l ih =>
      intro hl U hU
      rw [List.foldlM_cons, hfm, (hl t (List.mem_cons_self ..)).2, variableUnion_eq _ _ hU (hl t (List.mem_cons_self ..)).1]
      obtain ⟨W, hW⟩ := ih (fun t' ht' => hl t' (List.mem_cons_of_mem _ ht')) (U ++ t.observed.filter (fun v => decide (v ∉ U))) (by
        rw [List.nodup_append]
        refine ⟨hU, ((hl t (List.mem_cons_self ..)).1).filter _, ?_⟩
        rintro v hv w hw rfl
        simpa [hv] using (List.mem_filter.1 hw).2)
      refine ⟨t.observed.filter (fun v => decide (v ∉ U)) ++ W, ?_⟩
      rw [← List.append_assoc]
      exact hW
  simp only [List.filter_nil, List.append_nil]
  exact key rest (fun t ht => ⟨(h t (List.mem_cons_of_mem _ ht)).2, htake t (List.mem_cons_of_mem _ ht)⟩) _ (h ts (List.mem_cons_self ..)).2

/-- the digits of a value -/
def unaryWords (n : Nat) (d : Int) : List (List Char) := (List.range n).map (fun (i : Nat) => if d = (i : Int) then ['1'] else ['0'])

theorem unaryRow_eq (n : Nat) (d : Int) (text : List Char) : unaryRow n d text = ok (text ++ line (unaryWords n d)) := by
  obtain ⟨rec, e, hr⟩ : ∃ rec : List Int, (if 0 ≤ d ∧ d < (n : Int) then wr (List.replicate n (0 : Int)) d.toNat 1 else ok (List.replicate n 0)) = ok rec ∧
      ∀ i, i < n → rd rec i = ok (if d = (i : Int) then 1 else 0) := by
    by_cases h : 0 ≤ d ∧ d < (n : Int)
    · rw [if_pos h, wr_lt (by simp; omega)]
      refine ⟨_, rfl, fun i hi => ?_⟩
      rw [rd_lt (by simpa using hi), List.getElem_set]
      congr 1
      by_cases e : d = (i : Int)
      · rw [if_pos (by omega), if_pos e]
      · rw [if_neg (by omega), if_neg e, List.getElem_replicate]
    · rw [if_neg h]
      refine ⟨_, rfl, fun i hi => ?_⟩
      rw [rd_lt (by simpa using hi), List.getElem_replicate, if_neg (by omega)]
  unfold unaryRow
  rw [e, ok_bind, printFields_eq (w := fun i => if d = (i : Int) then ['1'] else ['0'])]
  · rw [ok_bind]
    unfold line unaryWords
    simp [fieldSeparator]
  · intro i hi
    rw [hr i hi, ok_bind]
    by_cases e : d = (i : Int)
    · simp [e]
    · simp [e]

theorem writeUnary_eq {x : VarTexts} {v : Nat} {names : List (List Char)} (hx : x.Named v names) {set : List TimeSeries} (hne : set ≠ [])
    (h : ∀ ts ∈ set, ts.WellFormed ∧ ts.observed.Nodup ∧ ts.observed[0]? = some v) :
    writeUnary x set = ok (0, some (dataText names (set.map (fun ts => ts.data.map (fun row => unaryWords (x.card v) (row.getD 0 (-1))))))) := by
  cases set with
  | nil => exact absurd rfl hne
  | cons ts rest =>
    obtain ⟨more, e⟩ := observedUnion_first ts rest (fun t ht => ⟨(h t ht).1, (h t ht).2.1⟩)
    have h0 := (h ts (List.mem_cons_self ..)).2.2
    have hpos : 0 < ts.observed.length := by
      by_contra hc
      rw [List.getElem?_eq_none (by omega)] at h0
      cases h0
    unfold writeUnary
    rw [if_neg hne, e, ok_bind]
    simp only
    rw [if_neg (show ¬ (ts.observed ++ more).length < 1 by rw [List.length_append]; omega)]
    have hfm : ((ts.observed ++ more).map some).filterMap id = ts.observed ++ more := by
      rw [List.filterMap_map, Function.id_comp, List.filterMap_some]
    have hrd : rd (ts.observed ++ more) 0 = ok v := by
      rw [rd_lt (by simp; omega), List.getElem_append_left hpos]
      rw [List.getElem?_eq_getElem hpos] at h0
      cases h0; rfl
    rw [hfm, hrd, ok_bind, printFields_eq (fun i hi => stateName_eq hx hi), ok_bind]
    rw [fold_text (g := fun ts => ((ts.data.map (fun row => unaryWords (x.card v) (row.getD 0 (-1)))).map line).flatten ++ ['\n'])]
    · rw [ok_bind]
      rw [names_range hx]
      simp [dataText, line, List.append_assoc, List.map_map, Function.comp_def]
    · intro t ht text
      obtain ⟨w1, w2, w3⟩ := h t ht
      have hp : 0 < t.observed.length := by
        by_contra hc
        rw [List.getElem?_eq_none (by omega)] at w3
        cases w3
      rw [loop_text (g := fun k => line (unaryWords (x.card v) ((t.data.getD k []).getD 0 (-1))))]
      · rw [ok_bind, ← w1.rows, map_range_getD t.data [] (fun row => line (unaryWords (x.card v) (row.getD 0 (-1))))]
        simp [List.append_assoc, List.map_map, Function.comp_def]
      · intro k hk text
        have hkd : k < t.data.length := by rw [w1.rows]; exact hk
        have hr := w1.row _ (List.getElem_mem hkd)
        rw [rd_lt hkd, ok_bind, rd_lt (by omega), ok_bind, unaryRow_eq, List.getD_eq_getElem _ _ hkd, List.getD_eq_getElem _ _ (by omega)]

/-! ## `niptrain` -/

variable {K S : Type} [Field K] [LinearOrder K]

/-- the largest number of iterations done in batches if `left` are asked for -/
def mostIterations (left : Int) : Nat :=
  if left ≤ 0 then 3 else left.toNat + (if left % 32 = 1 then 2 else if left % 32 = 2 then 1 else 0)

theorem trainBatches_spec (task : EmTask K S) (prepare : Bool → S → S) (fuel : Nat) (left : Int) (r r' : Run K S)
    (h : trainBatches task prepare fuel left r = ok (some r')) :
    ∃ es : List (EmResult K S), r'.curve = r.curve ++ (es.map EmResult.curve).flatten ∧
      (∀ e ∈ es, ∃ (k : Int) (s : S), k ≤ 32 ∧ ({ task with maxIterations := k } : EmTask K S).em (max 3 k.toNat) s = ok e) ∧
      (es.map EmResult.curve).flatten.length ≤ mostIterations left ∧
      (((es.map EmResult.curve).flatten.length : Int) < left → ∃ e ∈ es, e.criterion = some .delta ∨ e.code = NIP_ERROR_BAD_LUCK) := by
  induction fuel generalizing left r with
  | zero => cases h
  | succ fuel ih =>
    unfold trainBatches at h
    simp only at h
    obtain ⟨cur, hcur⟩ : ∃ cur, cur = if left > batchIterations then batchIterations else left := ⟨_, rfl⟩
    rw [← hcur] at h
    obtain ⟨e, he, h⟩ := bind_ok h
    have ht := Props.C50_true_report _ _ _ _ he
    have hlen : e.curve.length ≤ max 3 cur.toNat := ht.1
    by_cases hc : ¬ (e.code = 0 ∨ e.code = NIP_ERROR_BAD_LUCK)
    · rw [if_pos hc] at h
      cases h
    · rw [if_neg hc] at h
      have hfull : ¬ (e.criterion = some .delta ∨ e.code = NIP_ERROR_BAD_LUCK) → cur ≤ e.curve.length ∧ e.criterion = some .iterations := by
        intro hn
        push Not at hn
        rw [not_not] at hc
        have h0 : e.code = 0 := by
          by_contra h0
          exact hn.2 (hc.resolve_left h0)
        rcases ht.2 with h1 | h1 | h1 | h1
        · exact absurd h1.2.1 hn.1
        · have := h1.2.2.2.1
          unfold Props.limit at this
          simp only at this
          exact ⟨by omega, h1.2.1⟩
        · exact absurd h1.1 hn.2
        · exact absurd h0 h1.1.1
      have hb : batchIterations = 32 := rfl
      rw [hb] at hcur
      have hle : cur ≤ 32 := by split at hcur <;> omega
      obtain ⟨rest, hrest⟩ : ∃ rest, rest = if e.criterion.getD r.criterion = Convergence.delta then 0 else left - cur := ⟨_, rfl⟩
      rw [← hrest] at h
      by_cases hpos : rest > 0
      · rw [if_pos hpos] at h
        obtain ⟨es, g1, g2, g3, g4⟩ := ih _ _ h
        have hleft : rest = left - cur := by split at hrest <;> omega
        rw [hleft] at hpos g3 g4
        have h32 : cur = 32 ∧ 32 < left := by split at hcur <;> omega
        refine ⟨e :: es, ?_, ?_, ?_, ?_⟩
        · rw [g1]; simp [List.append_assoc]
        · intro e' he'
          rcases List.mem_cons.1 he' with rfl | he'
          · exact ⟨cur, _, hle, he⟩
          · exact g2 e' he'
        · rw [List.map_cons, List.flatten_cons, List.length_append]
          unfold mostIterations at g3 ⊢
          rw [if_neg (by omega)] at g3 ⊢
          have : (left - cur) % 32 = left % 32 := by omega
          rw [this] at g3
          omega
        · intro hlt
          rw [List.map_cons, List.flatten_cons, List.length_append] at hlt
          by_cases hn : e.criterion = some .delta ∨ e.code = NIP_ERROR_BAD_LUCK
          · exact ⟨e, by simp, hn⟩
          · have := (hfull hn).1
            obtain ⟨e', m1, m2⟩ := g4 (by push_cast at hlt; omega)
            exact ⟨e', by simp [m1], m2⟩
      · rw [if_neg hpos] at h
        cases h
        refine ⟨[e], by simp, ?_, ?_, ?_⟩
        · intro e' he'
          rw [List.mem_singleton.1 he']
          exact ⟨cur, _, hle, he⟩
        · simp only [List.map_cons, List.map_nil, List.flatten_cons, List.flatten_nil, List.append_nil]
          unfold mostIterations
          split_ifs <;> split at hcur <;> omega
        · intro hlt
          simp only [List.map_cons, List.map_nil, List.flatten_cons, List.flatten_nil, List.append_nil] at hlt
          refine ⟨e, by simp, ?_⟩
          by_contra hn
          have := (hfull hn).1
          have hd : ¬ e.criterion.getD r.criterion = Convergence.delta := by
            rw [(hfull hn).2]; simp
          rw [if_neg hd] at hrest
          omega

end Nip
