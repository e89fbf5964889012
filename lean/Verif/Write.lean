import Mathlib.Data.List.Forall2
import Verif.Read
import Verif.VariableLemmas

/-! # Lemmas about writing time series to a file -/

namespace Nip

open Res Spec

/-! ## Fields -/

/-- a text that can be a field -/
def isWord (w : List Char) : Prop := w ≠ [] ∧ ∀ c ∈ w, between fieldSeparator c = false

theorem foldl_word (w : List Char) (h : ∀ c ∈ w, between fieldSeparator c = false) (a : List (List Char)) (b : List Char) :
    w.foldl (groupStep (between fieldSeparator)) (a, b) = (a, b ++ w) := by
  induction w generalizing b with
  | nil => simp
  | cons c w ih =>
    rw [List.foldl_cons]
    have : groupStep (between fieldSeparator) (a, b) c = (a, b ++ [c]) := by
      unfold groupStep
      rw [h c (List.mem_cons_self ..)]
      rfl
    rw [this, ih (fun c hc => h c (List.mem_cons_of_mem _ hc)), List.append_assoc]
    rfl

theorem foldl_join (ws : List (List Char)) (h : ∀ w ∈ ws, isWord w) (a : List (List Char)) :
    (joinFields ws ++ ['\n']).foldl (groupStep (between fieldSeparator)) (a, []) = (a ++ ws, []) := by
  induction ws generalizing a with
  | nil =>
    simp [joinFields, groupStep, between, whitespace]
  | cons w ws ih =>
    have hw := h w (List.mem_cons_self ..)
    have hne : w.isEmpty = false := by
      cases w with
      | nil => exact absurd rfl hw.1
      | cons _ _ => rfl
    cases ws with
    | nil =>
      unfold joinFields
      rw [List.foldl_append, foldl_word w hw.2, List.nil_append]
      have : between fieldSeparator '\n' = true := by decide
      simp [groupStep, this, hne]
    | cons v ws =>
      unfold joinFields
      rw [List.append_assoc, List.foldl_append, foldl_word w hw.2, List.nil_append, List.cons_append, List.foldl_cons]
      have hs : between fieldSeparator fieldSeparator = true := by decide
      have : groupStep (between fieldSeparator) (a, w) fieldSeparator = (a ++ [w], []) := by
        unfold groupStep
        rw [hs]
        simp [hne]
      rw [this, ih (fun u hu => h u (List.mem_cons_of_mem _ hu)), List.append_assoc]
      rfl

theorem fields_join (ws : List (List Char)) (h : ∀ w ∈ ws, isWord w) : fields fieldSeparator (joinFields ws ++ ['\n']) = ws := by
  rw [fields, groups_fold, foldl_join ws h]
  simp [closeGroups]

theorem join_length (ws : List (List Char)) (n : Nat) (h : ∀ w ∈ ws, w.length ≤ n) : (joinFields ws).length ≤ ws.length * (n + 1) := by
  induction ws with
  | nil => simp [joinFields]
  | cons w ws ih =>
    have hw := h w (List.mem_cons_self ..)
    have ih := ih (fun u hu => h u (List.mem_cons_of_mem _ hu))
    cases ws with
    | nil =>
      unfold joinFields
      simp only [List.length_singleton]
      omega
    | cons v ws =>
      unfold joinFields
      rw [List.length_append, List.length_cons]
      rw [List.length_cons, Nat.add_mul]
      omega

theorem join_newline (ws : List (List Char)) (h : ∀ w ∈ ws, isWord w) : '\n' ∉ joinFields ws := by
  induction ws with
  | nil => simp [joinFields]
  | cons w ws ih =>
    have hw : '\n' ∉ w := fun hc => by
      have h1 := (h w (List.mem_cons_self ..)).2 _ hc
      have h2 : between fieldSeparator '\n' = true := by decide
      rw [h1] at h2
      cases h2
    have ih := ih (fun u hu => h u (List.mem_cons_of_mem _ hu))
    cases ws with
    | nil => exact hw
    | cons v ws =>
      unfold joinFields
      rw [List.mem_append, List.mem_cons]
      rintro (hc | hc | hc)
      · exact hw hc
      · exact absurd hc (by decide)
      · exact ih hc

/-! ## Groups of lines -/

theorem foldl_lines (p : List Char → Bool) (rows : List (List Char)) (h : ∀ r ∈ rows, p r = false) (a : List (List (List Char)))
    (b : List (List Char)) : rows.foldl (groupStep p) (a, b) = (a, b ++ rows) := by
  induction rows generalizing b with
  | nil => simp
  | cons r rows ih =>
    rw [List.foldl_cons]
    have : groupStep p (a, b) r = (a, b ++ [r]) := by
      unfold groupStep
      rw [h r (List.mem_cons_self ..)]
      rfl
    rw [this, ih (fun r hr => h r (List.mem_cons_of_mem _ hr)), List.append_assoc]
    rfl

theorem groups_lines (p : List Char → Bool) (blank : List Char) (hb : p blank = true) (chunks : List (List (List Char)))
    (h : ∀ rows ∈ chunks, ∀ r ∈ rows, p r = false) :
    groups p (chunks.flatMap (fun rows => rows ++ [blank])) = chunks.filter (fun rows => !rows.isEmpty) := by
  rw [groups_fold]
  have key : ∀ a, (chunks.flatMap (fun rows => rows ++ [blank])).foldl (groupStep p) (a, []) =
      (a ++ chunks.filter (fun rows => !rows.isEmpty), []) := by
    induction chunks with
    | nil => intro a; simp
    | cons rows chunks ih =>
      intro a
      rw [List.flatMap_cons, List.foldl_append, List.foldl_append, foldl_lines p rows (h rows (List.mem_cons_self ..)), List.nil_append,
        List.foldl_cons, List.foldl_nil]
      have : groupStep p (a, rows) blank = (a ++ [rows].filter (fun rows => !rows.isEmpty), []) := by
        unfold groupStep
        rw [if_pos hb]
        cases rows <;> rfl
      rw [this, ih (fun r hr => h r (List.mem_cons_of_mem _ hr)), List.append_assoc, ← List.filter_append]
      rfl
  rw [key]
  simp [closeGroups]

/-! ## What is written -/

theorem lookup_snoc {β : Type} (l : List (Nat × β)) (a v : Nat) (b : β) (h : ∀ q ∈ l, q.1 ≠ a) :
    (l ++ [(a, b)]).lookup v = if v = a then some b else l.lookup v := by
  induction l with
  | nil => 
    rw [List.nil_append, List.lookup_cons]
    by_cases hv : v = a
    · simp [hv]
    · have : (v == a) = false := by simpa using hv
      rw [this, if_neg hv]
  | cons q l ih =>
    obtain ⟨k, c⟩ := q
    have hk : k ≠ a := h (k, c) (List.mem_cons_self ..)
    have ih := ih (fun q hq => h q (List.mem_cons_of_mem _ hq))
    rw [List.cons_append, List.lookup_cons, List.lookup_cons]
    by_cases hv : v = k
    · subst hv
      simp [hk]
    · have : (v == k) = false := by simpa using hv
      rw [this]
      exact ih

/-- the values of a row at all the variables written -/
def record (observed : List Nat) (row : List Int) (U : List Nat) : List Int := U.map (fun v => ((observed.zip row).lookup v).getD (-1))

/-- the word for a value -/
def wordFor (names : Nat → List (List Char)) (v : Nat) (d : Int) : List Char :=
  if 0 ≤ d then (names v).getD d.toNat [] else "null".toList

theorem set_map_nodup {β : Type} (U : List Nat) (hU : U.Nodup) (f : Nat → β) (a : Nat) (ha : a ∈ U) (b : β) :
    (U.map f).set (U.findIdx (fun y => a == y)) b = U.map (fun v => if v = a then b else f v) := by
  have hlt : U.findIdx (fun y => a == y) < U.length := List.findIdx_lt_length_of_exists ⟨a, ha, by simp⟩
  have hget : U[U.findIdx (fun y => a == y)] = a := by
    have := List.findIdx_getElem (w := hlt)
    rw [beq_iff_eq] at this
    exact this.symm
  apply List.ext_getElem
  · simp
  · intro i h1 h2
    rw [List.length_map] at h2
    rw [List.getElem_set, List.getElem_map, List.getElem_map]
    by_cases hi : U.findIdx (fun y => a == y) = i
    · rw [if_pos hi]
      subst hi
      rw [if_pos hget]
    · rw [if_neg hi, if_neg]
      intro hc
      exact hi ((List.Nodup.getElem_inj_iff hU).1 (hget.trans hc.symm))

theorem writeRow_eq (x : VarTexts) (names : Nat → List (List Char)) (U : List Nat) (hU : U.Nodup) (hx : ∀ v ∈ U, x.Named v (names v))
    (observed : List Nat) (ho : observed.Nodup) (hsub : observed ⊆ U) (row : List Int) (hrow : row.length = observed.length)
    (hval : ∀ v ∈ U, ((observed.zip row).lookup v).getD (-1) < (x.card v : Int)) (map : Option (List Nat))
    (hmap : observed ≠ [] → map = some (observed.map (fun a => U.findIdx (fun y => a == y)))) :
    writeRow x U map observed.length row =
      ok (joinFields (U.map (fun v => wordFor names v (((observed.zip row).lookup v).getD (-1)))) ++ ['\n']) := by
  unfold writeRow
  obtain ⟨r, e, rfl⟩ := loop_inv (n := observed.length) (f := recordStep map row) (s := List.replicate U.length (-1))
    (fun i r => r = U.map (fun v => (((observed.zip row).take i).lookup v).getD (-1))) (by
      simp [List.map_const']) (by
      rintro i hi _ rfl
      have hne : observed ≠ [] := by rintro rfl; exact absurd hi (by simp)
      unfold recordStep
      rw [hmap hne]
      simp only
      have hz : i < (observed.zip row).length := by rw [List.length_zip]; omega
      rw [rd_lt (by rw [List.length_map]; exact hi), ok_bind, rd_lt (by omega : i < row.length), ok_bind, List.getElem_map]
      have ha : observed[i] ∈ U := hsub (List.getElem_mem hi)
      have hlt : U.findIdx (fun y => observed[i] == y) < U.length := List.findIdx_lt_length_of_exists ⟨_, ha, by simp⟩
      rw [wr_lt (lt_of_lt_of_eq hlt (List.length_map _).symm)]
      refine ⟨_, rfl, ?_⟩
      rw [set_map_nodup U hU _ _ ha]
      apply List.map_congr_left
      intro v _
      rw [List.take_succ_eq_append_getElem hz, List.getElem_zip, lookup_snoc]
      · by_cases hv : v = observed[i]
        · rw [if_pos hv, if_pos hv]; rfl
        · rw [if_neg hv, if_neg hv]
      · rintro ⟨a, b⟩ hq rfl
        obtain ⟨j, hj, hjq⟩ := List.getElem_of_mem hq
        rw [List.length_take] at hj
        rw [List.getElem_take, List.getElem_zip] at hjq
        have := (Prod.mk.inj hjq).1
        have := (List.Nodup.getElem_inj_iff ho).1 this
        omega)
  refine Eq.trans (congrArg (fun r => Res.bind r _) e) ?_
  rw [ok_bind']
  have hzl : (observed.zip row).length = observed.length := by rw [List.length_zip]; omega
  rw [List.take_of_length_le (by omega : (observed.zip row).length ≤ observed.length)]
  obtain ⟨r, e, rfl⟩ := loop_inv (n := U.length) (f := fun i words => do
      let v ← rd U i
      let d ← rd (U.map (fun v => ((observed.zip row).lookup v).getD (-1))) i
      if d ≥ 0 then do
        let name ← x.stateName v d
        ok (words ++ [name])
      else ok (words ++ ["null".toList])) (s := [])
    (fun i r => r = (U.take i).map (fun v => wordFor names v (((observed.zip row).lookup v).getD (-1)))) rfl (by
      rintro i hi _ rfl
      beta_reduce
      rw [rd_lt hi, ok_bind, rd_lt (by rw [List.length_map]; exact hi), ok_bind, List.getElem_map,
        List.take_succ_eq_append_getElem hi, List.map_append, List.map_singleton]
      have hv := hval U[i] (List.getElem_mem hi)
      generalize ((observed.zip row).lookup U[i]).getD (-1) = d at hv
      by_cases hd : d ≥ 0
      · rw [if_pos hd]
        have hn := hx U[i] (List.getElem_mem hi)
        have hlt : d.toNat < (names U[i]).length := by rw [hn.2]; omega
        have := x.stateName_eq U[i] (names U[i]) hn.1 d.toNat hlt
        rw [Int.toNat_of_nonneg hd] at this
        rw [this, ok_bind]
        refine ⟨_, rfl, ?_⟩
        unfold wordFor
        rw [if_pos hd, List.getD_eq_getElem _ _ hlt]
      · rw [if_neg hd]
        refine ⟨_, rfl, ?_⟩
        unfold wordFor
        rw [if_neg hd])
  refine Eq.trans (congrArg (fun r => Res.bind r _) e) ?_
  rw [ok_bind', List.take_length]

/-- what is needed of a series to write it -/
structure Fine (x : VarTexts) (vars : List Nat) (ts : TimeSeries) : Prop where
  wf : ts.WellFormed
  nodup : ts.observed.Nodup
  sub : ts.observed ⊆ vars
  values : ∀ (t k v : Nat) (row : List Int) (d : Int), ts.data[t]? = some row → row[k]? = some d → ts.observed[k]? = some v →
    -1 ≤ d ∧ d < (x.card v : Int)

theorem observedUnion_eq (set : List TimeSeries) (h : ∀ ts ∈ set, ts.WellFormed ∧ ts.observed.Nodup) :
    ∃ U : List Nat, observedUnion set = ok (U.map some, U.length) ∧ U.Nodup ∧ ∀ v, v ∈ U ↔ ∃ ts ∈ set, v ∈ ts.observed := by
  have htake : ∀ ts ∈ set, ts.observed.take ((ts.numVars : Int) - ts.numHidden).toNat = ts.observed := by
    intro ts hts
    rw [(h ts hts).1.hidden]
    simp
  have hunion : ∀ (a b : List Nat), a.Nodup → b.Nodup → ∃ U : List Nat, variableUnion a b = ok (U.map some, U.length) ∧ U.Nodup ∧
      ∀ v, v ∈ U ↔ v ∈ a ∨ v ∈ b := by
    intro a b ha hb
    refine ⟨_, variableUnion_eq a b ha hb, ?_, ?_⟩
    · rw [List.nodup_append]
      refine ⟨ha, hb.filter _, ?_⟩
      rintro v hv w hw rfl
      simpa [hv] using (List.mem_filter.1 hw).2
    · intro v
      rw [List.mem_append, List.mem_filter]
      by_cases hv : v ∈ a <;> simp [hv]
  have hfm : ∀ U : List Nat, (U.map some).filterMap id = U := by
    intro U
    rw [List.filterMap_map, Function.id_comp, List.filterMap_some]
  cases set with
  | nil => exact ⟨[], rfl, List.nodup_nil, by simp⟩
  | cons ts l =>
    unfold observedUnion
    simp only
    rw [htake ts (List.mem_cons_self ..)]
    obtain ⟨U, e, hU, hm⟩ := hunion ts.observed [] (h ts (List.mem_cons_self ..)).2 List.nodup_nil
    rw [e, ok_bind]
    have key : ∀ (l : List TimeSeries), (∀ ts ∈ l, ts.observed.Nodup ∧ ts.observed.take ((ts.numVars : Int) - ts.numHidden).toNat = ts.observed) →
        ∀ U : List Nat, U.Nodup → ∃ W : List Nat, l.foldlM (fun (st : List (Option Nat) × Nat) ts =>
          variableUnion (st.1.filterMap id) (ts.observed.take ((ts.numVars : Int) - ts.numHidden).toNat)) (U.map some, U.length) =
            ok (W.map some, W.length) ∧ W.Nodup ∧ ∀ v, v ∈ W ↔ v ∈ U ∨ ∃ ts ∈ l, v ∈ ts.observed := by
      intro l
      induction l with
      | nil => intro _ U hU; exact ⟨U, rfl, hU, by simp⟩
      | cons ts l ih =>
        intro hl U hU
        rw [List.foldlM_cons, hfm, (hl ts (List.mem_cons_self ..)).2]
        obtain ⟨V, eV, hV, hVm⟩ := hunion U ts.observed hU (hl ts (List.mem_cons_self ..)).1
        rw [eV, ok_bind]
        obtain ⟨W, eW, hW, hWm⟩ := ih (fun t ht => hl t (List.mem_cons_of_mem _ ht)) V hV
        refine ⟨W, eW, hW, ?_⟩
        intro v
        rw [hWm, hVm]
        simp [or_assoc]
    obtain ⟨W, eW, hW, hWm⟩ := key l (fun t ht => ⟨(h t (List.mem_cons_of_mem _ ht)).2, htake t (List.mem_cons_of_mem _ ht)⟩) U hU
    refine ⟨W, eW, hW, ?_⟩
    intro v
    rw [hWm, hm]
    simp

/-- the words of the line for a row -/
def rowWords (names : Nat → List (List Char)) (U : List Nat) (ts : TimeSeries) (row : List Int) : List (List Char) :=
  U.map (fun v => wordFor names v (((ts.observed.zip row).lookup v).getD (-1)))

/-- the lines for a series, without newlines -/
def seriesLines (names : Nat → List (List Char)) (U : List Nat) (ts : TimeSeries) : List (List Char) :=
  ts.data.map (fun row => joinFields (rowWords names U ts row))

/-- the lines of the file, without newlines -/
def allLines (x : VarTexts) (names : Nat → List (List Char)) (U : List Nat) (set : List TimeSeries) : List (List Char) :=
  joinFields (U.map x.symbol) :: set.flatMap (fun ts => seriesLines names U ts ++ [[]])

/-- lines with newlines, one after the other -/
def unlines (l : List (List Char)) : List Char := (l.map (fun l => l ++ ['\n'])).flatten

theorem unlines_append (a b : List (List Char)) : unlines (a ++ b) = unlines a ++ unlines b := by
  unfold unlines
  rw [List.map_append, List.flatten_append]

theorem lookup_zip_mem {l : List Nat} {row : List Int} {v : Nat} {d : Int} (h : (l.zip row).lookup v = some d) :
    ∃ k : Nat, l[k]? = some v ∧ row[k]? = some d := by
  induction l generalizing row with
  | nil => simp at h
  | cons a l ih =>
    cases row with
    | nil => simp at h
    | cons b row =>
      rw [List.zip_cons_cons, List.lookup_cons] at h
      by_cases hv : v = a
      · subst hv
        simp only [beq_self_eq_true] at h
        exact ⟨0, rfl, by simpa using h⟩
      · have : (v == a) = false := by simpa using hv
        rw [this] at h
        obtain ⟨k, h1, h2⟩ := ih h
        exact ⟨k + 1, h1, h2⟩

theorem Fine.bound {x : VarTexts} {vars : List Nat} {ts : TimeSeries} (h : Fine x vars ts) {row : List Int} (hrow : row ∈ ts.data) (v : Nat) :
    -1 ≤ ((ts.observed.zip row).lookup v).getD (-1) ∧ ((ts.observed.zip row).lookup v).getD (-1) < (x.card v : Int) := by
  cases hl : (ts.observed.zip row).lookup v with
  | none =>
    rw [Option.getD_none]
    exact ⟨le_refl _, by omega⟩
  | some d =>
    rw [Option.getD_some]
    obtain ⟨k, h1, h2⟩ := lookup_zip_mem hl
    obtain ⟨t, ht⟩ := List.getElem?_of_mem hrow
    exact h.values t k v row d ht h2 h1

theorem writeTimeseries_union (x : VarTexts) (vars : List Nat) (names : Nat → List (List Char)) (hx : ∀ v ∈ vars, x.Named v (names v))
    (set : List TimeSeries) (h : ∀ ts ∈ set, Fine x vars ts) :
    ∃ U : List Nat, observedUnion set = ok (U.map some, U.length) ∧ U.Nodup ∧ (∀ v, v ∈ U ↔ ∃ ts ∈ set, v ∈ ts.observed) ∧
      writeTimeseries x set = if U = [] then ok (EINVAL, none) else ok (0, some (unlines (allLines x names U set))) := by
  obtain ⟨U, e, hU, hm⟩ := observedUnion_eq set (fun ts hts => ⟨(h ts hts).wf, (h ts hts).nodup⟩)
  refine ⟨U, e, hU, hm, ?_⟩
  unfold writeTimeseries
  by_cases hs : set = []
  · subst hs
    have : U = [] := List.eq_nil_iff_forall_not_mem.2 (fun v hv => by simpa using (hm v).1 hv)
    rw [if_pos rfl, if_pos this]
  rw [if_neg hs, e, ok_bind]
  simp only
  by_cases hU0 : U = []
  · subst hU0
    rw [if_pos rfl]
    rfl
  rw [if_neg hU0, if_neg (by rw [List.length_eq_zero_iff]; exact hU0)]
  have hfm : (U.map some).filterMap id = U := by rw [List.filterMap_map, Function.id_comp, List.filterMap_some]
  rw [hfm]
  have hUv : ∀ v ∈ U, v ∈ vars := by
    intro v hv
    obtain ⟨ts, hts, hvt⟩ := (hm v).1 hv
    exact (h ts hts).sub hvt
  have key : ∀ l : List TimeSeries, (∀ ts ∈ l, Fine x vars ts ∧ ts.observed ⊆ U) → ∀ text : List Char,
      l.foldlM (fun text ts => do
        let (_, map) ← mapper U ts.observed
        let text ← loop ts.length (fun t text => do
          let row ← rd ts.data t
          let line ← writeRow x U map ts.numObserved row
          ok (text ++ line)) text
        ok (text ++ ['\n'])) text = ok (text ++ unlines (l.flatMap (fun ts => seriesLines names U ts ++ [[]]))) := by
    intro l
    induction l with
    | nil => intro _ text; simp [unlines]
    | cons ts l ih =>
      intro hl text
      obtain ⟨hf, hsub⟩ := hl ts (List.mem_cons_self ..)
      rw [List.foldlM_cons]
      have hmapper : ∃ code map, mapper U ts.observed = ok (code, map) ∧
          (ts.observed ≠ [] → map = some (ts.observed.map (fun a => U.findIdx (fun y => a == y)))) := by
        by_cases hne : ts.observed = []
        · refine ⟨0, none, ?_, fun h => absurd hne h⟩
          unfold mapper
          rw [hne, if_pos (by simp)]
        · obtain ⟨m, em, rfl⟩ := mapper_eq U ts.observed hsub hne (List.Subperm.length_le (List.subperm_of_subset hf.nodup hsub))
          exact ⟨0, _, em, fun _ => rfl⟩
      obtain ⟨code, map, em, hmap⟩ := hmapper
      rw [em, ok_bind]
      simp only
      obtain ⟨r, er, rfl⟩ := loop_inv (n := ts.length) (f := fun t text => do
          let row ← rd ts.data t
          let line ← writeRow x U map ts.numObserved row
          ok (text ++ line)) (s := text)
        (fun t r => r = text ++ unlines ((seriesLines names U ts).take t)) (by simp [unlines]) (by
          rintro t ht _ rfl
          have htl : t < ts.data.length := by rw [hf.wf.rows]; exact ht
          beta_reduce
          rw [rd_lt htl, ok_bind, hf.wf.observed]
          have hmem : ts.data[t] ∈ ts.data := List.getElem_mem htl
          rw [writeRow_eq x names U hU (fun v hv => hx v (hUv v hv)) ts.observed hf.nodup hsub ts.data[t] (hf.wf.row _ hmem)
            (fun v _ => (hf.bound hmem v).2) map hmap, ok_bind]
          refine ⟨_, rfl, ?_⟩
          have hsl : t < (seriesLines names U ts).length := by unfold seriesLines; rw [List.length_map]; exact htl
          rw [List.take_succ_eq_append_getElem hsl, unlines_append, List.append_assoc]
          have hg : (seriesLines names U ts)[t] = joinFields (rowWords names U ts ts.data[t]) := List.getElem_map _
          rw [hg]
          simp [unlines, rowWords])
      rw [bind_assoc]
      refine Eq.trans (congrArg (fun r => Res.bind r _) er) ?_
      rw [ok_bind', ok_bind, ih (fun t ht => hl t (List.mem_cons_of_mem _ ht)), List.flatMap_cons]
      have : (seriesLines names U ts).take ts.length = seriesLines names U ts := by
        apply List.take_of_length_le
        unfold seriesLines
        rw [List.length_map, hf.wf.rows]
      rw [this, unlines_append, unlines_append]
      congr 1
      simp [unlines]
  have := key set (fun ts hts => ⟨h ts hts, fun v hv => (hm v).2 ⟨ts, hts, hv⟩⟩) (joinFields (U.map x.symbol) ++ ['\n'])
  refine Eq.trans (congrArg (fun r => Res.bind r _) this) ?_
  rw [ok_bind']
  congr 3

theorem writeTimeseries_eq (x : VarTexts) (vars : List Nat) (names : Nat → List (List Char)) (hx : ∀ v ∈ vars, x.Named v (names v))
    (set : List TimeSeries) (h : ∀ ts ∈ set, Fine x vars ts) :
    ∃ U : List Nat, U.Nodup ∧ (∀ v, v ∈ U ↔ ∃ ts ∈ set, v ∈ ts.observed) ∧
      writeTimeseries x set = if U = [] then ok (EINVAL, none) else ok (0, some (unlines (allLines x names U set))) := by
  obtain ⟨U, _, h⟩ := writeTimeseries_union x vars names hx set h
  exact ⟨U, h⟩

/-- series with the same columns -/
theorem observedUnion_same {set : List TimeSeries} (hne : set ≠ []) {order : List Nat} (ho : order.Nodup) (h : ∀ ts ∈ set, ts.WellFormed ∧ ts.observed = order) :
    observedUnion set = ok (order.map some, order.length) := by
  have hu : ∀ b, b = [] ∨ b = order → variableUnion order b = ok (order.map some, order.length) := by
    intro b hb
    have hf : order ++ b.filter (fun v => decide (v ∉ order)) = order := by
      rcases hb with rfl | rfl
      · simp
      · rw [List.filter_eq_nil_iff.2 (by simp)]
        simp
    have := variableUnion_eq order b ho (by rcases hb with rfl | rfl; exact List.nodup_nil; exact ho)
    simp only [hf] at this
    exact this
  have htake : ∀ ts ∈ set, ts.observed.take ((ts.numVars : Int) - ts.numHidden).toNat = order := by
    intro ts hts
    rw [(h ts hts).1.hidden]
    simpa using (h ts hts).2
  cases set with
  | nil => exact absurd rfl hne
  | cons ts l =>
    unfold observedUnion
    simp only
    rw [htake ts (List.mem_cons_self ..), hu [] (Or.inl rfl), ok_bind]
    have hl : ∀ ts ∈ l, ts.observed.take ((ts.numVars : Int) - ts.numHidden).toNat = order := fun t ht => htake t (List.mem_cons_of_mem _ ht)
    clear h htake hne
    induction l with
    | nil => rfl
    | cons t l ih =>
      rw [List.foldlM_cons, hl t (List.mem_cons_self ..)]
      have : (order.map some).filterMap id = order := by rw [List.filterMap_map, Function.id_comp, List.filterMap_some]
      simp only [this]
      rw [hu order (Or.inr rfl), ok_bind]
      exact ih (fun t ht => hl t (List.mem_cons_of_mem _ ht))

end Nip
