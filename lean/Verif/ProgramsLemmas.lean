import Verif.Programs
import Verif.Smoothing
import Verif.Spec.Lines
import Verif.Spec.Series

/-! # The programs of `util`: lemmas -/

namespace Nip

open Res Spec

set_option linter.unusedSectionVars false

variable {K : Type} [Field K] [LinearOrder K] [IsStrictOrderedRing K]

/-! ## Text that grows -/

theorem loop_text {α : Type} {n : Nat} {f : Nat → List α → Res (List α)} {g : Nat → List α} (h : ∀ i, i < n → ∀ text, f i text = ok (text ++ g i)) (text : List α) :
    loop n f text = ok (text ++ ((List.range n).map g).flatten) := by
  obtain ⟨s, e1, e2⟩ := loop_inv (n := n) (s := text) (f := f) (fun i s => s = text ++ ((List.range i).map g).flatten) (by simp)
    (by
      rintro i hi s rfl
      exact ⟨_, h i hi _, by simp [List.range_succ, List.append_assoc]⟩)
  rw [e1, e2]

theorem fold_text {α β : Type} {f : List β → α → Res (List β)} {g : α → List β} : ∀ (l : List α), (∀ a ∈ l, ∀ text, f text a = ok (text ++ g a)) → ∀ text,
    l.foldlM f text = ok (text ++ (l.map g).flatten) := by
  intro l
  induction l with
  | nil => intro _ text; simp [List.foldlM]
  | cons a l ih =>
    intro h text
    rw [List.foldlM_cons, h a (by simp), ok_bind, ih (fun b hb => h b (by simp [hb]))]
    simp [List.append_assoc]

theorem map_range_getD {α β : Type} (l : List α) (d : α) (g : α → β) : (List.range l.length).map (fun i => g (l.getD i d)) = l.map g := by
  apply List.ext_getElem (by simp)
  intro i h1 h2
  have hi : i < l.length := by simpa using h1
  simp [List.getElem?_eq_getElem hi]

theorem intercalate_concat {α : Type} (sep a : List α) : ∀ l : List (List α), List.intercalate sep (l ++ [a]) = (if l = [] then a else List.intercalate sep l ++ sep ++ a) := by
  intro l
  induction l with
  | nil => simp [List.intercalate]
  | cons b l ih =>
    rw [if_neg (by simp)]
    cases l with
    | nil => simp [List.intercalate, List.intersperse]
    | cons c l =>
      rw [if_neg (by simp)] at ih
      simp only [List.cons_append, List.intercalate, List.intersperse, List.flatten_cons] at ih ⊢
      rw [ih]
      simp [List.append_assoc]

theorem printFields_eq {n : Nat} {word : Nat → Res (List Char)} {w : Nat → List Char} (h : ∀ i, i < n → word i = ok (w i)) (text : List Char) :
    printFields n word text = ok (text ++ List.intercalate [','] ((List.range n).map w)) := by
  unfold printFields
  obtain ⟨s, e1, e2⟩ := loop_inv (n := n) (s := text) (f := fun i text => do
      let text := if 0 < i then text ++ [fieldSeparator] else text
      let w ← word i
      ok (text ++ w)) (fun i s => s = text ++ List.intercalate [','] ((List.range i).map w)) (by simp [List.intercalate])
    (by
      rintro i hi s rfl
      refine ⟨_, by simp only [h i hi, ok_bind]; rfl, ?_⟩
      rw [List.range_succ, List.map_append, List.map_singleton, intercalate_concat]
      cases i with
      | zero => simp [List.intercalate]
      | succ i => rw [if_pos (Nat.succ_pos i), if_neg (by simp)]; simp [List.append_assoc, fieldSeparator])
  rw [e1, e2]

theorem printRow_eq {n : Nat} (hn : 0 < n) {word : Nat → Res (List Char)} {w : Nat → List Char} (h : ∀ i, i < n → word i = ok (w i)) (text : List Char) :
    printRow n word text = ok (text ++ line ((List.range n).map w)) := by
  unfold printRow
  obtain ⟨s, e1, e2⟩ := loop_inv (n := n) (s := text) (f := fun j text => do
      let w ← word j
      ok (text ++ w ++ [if j + 1 < n then ',' else '\n'])) (fun i s => s = text ++ List.intercalate [','] ((List.range i).map w) ++
        (if i = 0 then [] else if i < n then [','] else ['\n'])) (by simp [List.intercalate])
    (by
      rintro i hi s rfl
      refine ⟨_, by simp only [h i hi, ok_bind]; rfl, ?_⟩
      rw [List.range_succ, List.map_append, List.map_singleton, intercalate_concat, if_neg (Nat.succ_ne_zero i)]
      cases i with
      | zero => by_cases h1 : 0 + 1 < n <;> simp [List.intercalate, h1]
      | succ i =>
        rw [if_neg (Nat.succ_ne_zero i), if_pos hi, if_neg (show ¬ List.map w (List.range (i + 1)) = [] by simp)]
        by_cases h1 : i + 1 + 1 < n <;> simp [List.append_assoc, h1])
  rw [e1, e2, if_neg (by omega), if_neg (by omega)]
  unfold line
  simp [List.append_assoc]

/-! ## Texts of variables -/

theorem stateName_eq {x : VarTexts} {v : Nat} {names : List (List Char)} (h : x.Named v names) {i : Nat} (hi : i < x.card v) :
    x.stateName v (i : Int) = ok (names.getD i []) := by
  unfold VarTexts.stateName
  rw [h.1]
  simp only
  rw [if_neg (by omega), Int.toNat_natCast, rd_lt (by rw [h.2]; exact hi), List.getD_eq_getElem _ _ (by rw [h.2]; exact hi)]

theorem names_range {x : VarTexts} {v : Nat} {names : List (List Char)} (h : x.Named v names) :
    (List.range (x.card v)).map (fun i => names.getD i []) = names := by
  rw [← h.2]
  have := map_range_getD names [] id
  simpa using this

/-! ## `write_uncertainseries` -/

/-- the arrays of an uncertain series have their sizes, as far as variable `v` is concerned -/
def UncertainSeries.Fits (u : UncertainSeries K) (v n : Nat) : Prop :=
  u.data.length = u.length ∧ ∀ row ∈ u.data, ∃ r, row[u.vars.idxOf v]? = some r ∧ r.length = n

theorem index_eq (u : UncertainSeries K) (v : Nat) : u.index v = ok (if v ∈ u.vars then some (u.vars.idxOf v) else none) := by
  unfold UncertainSeries.index
  rw [firstIdx_list u.vars (fun w => v == w) _ 0 (by omega), List.drop_zero, List.take_length, List.findIdx?_eq_guard_findIdx_lt]
  have hp : (fun w => v == w) = (fun w => w == v) := by funext w; exact BEq.comm
  rw [hp]
  have hi : List.findIdx (fun w => w == v) u.vars = u.vars.idxOf v := rfl
  rw [hi]
  by_cases h : v ∈ u.vars
  · rw [if_pos h, Option.guard, if_pos (by simpa using List.idxOf_lt_length_iff.mpr h)]; rfl
  · rw [if_neg h, Option.guard, if_neg (by simpa using fun h' => h (List.idxOf_lt_length_iff.mp h'))]; rfl

theorem indices_eq (v : Nat) : ∀ set : List (UncertainSeries K), indices v set =
    ok (if ∀ u ∈ set, v ∈ u.vars then some (set.map (fun u => u.vars.idxOf v)) else none) := by
  intro set
  induction set with
  | nil => simp [indices]
  | cons u l ih =>
    unfold indices
    rw [index_eq, ok_bind]
    by_cases h : v ∈ u.vars
    · simp only [if_pos h]
      rw [ih, ok_bind]
      by_cases h' : ∀ u ∈ l, v ∈ u.vars
      · rw [if_pos h', if_pos (by simpa [h] using h')]; simp
      · rw [if_neg h', if_neg (by simpa [h] using h')]; rfl
    · simp only [if_neg h]
      rw [if_neg (by simp [h])]

theorem writeUncertainSeries_eq (fmt : K → List Char) {n v : Nat} {u : UncertainSeries K} (h : u.Fits v n) (text : List Char) :
    writeUncertainSeries fmt n u (u.vars.idxOf v) text =
      ok (text ++ ((u.data.map (fun row => line ((row.getD (u.vars.idxOf v) []).map fmt))).flatten ++ ['\n'])) := by
  unfold writeUncertainSeries
  have hrow : ∀ t, t < u.length → ∀ text, (do
      let text ← printFields n (fun i => do
        let row ← rd u.data t
        let r ← rd row (u.vars.idxOf v)
        let a ← rd r i
        ok (fmt a)) text
      ok (text ++ ['\n'])) = ok (text ++ line (((u.data.getD t []).getD (u.vars.idxOf v) []).map fmt)) := by
    intro t ht text
    have htd : t < u.data.length := by rw [h.1]; exact ht
    obtain ⟨r, hr, hrl⟩ := h.2 _ (List.getElem_mem htd)
    obtain ⟨hi, hr'⟩ := List.getElem?_eq_some_iff.mp hr
    rw [List.getD_eq_getElem _ _ htd, List.getD_eq_getElem _ _ hi, hr']
    rw [printFields_eq (w := fun i => fmt (r.getD i 0)), ok_bind]
    · rw [← hrl, map_range_getD]
      simp [line, List.append_assoc]
    · intro i hi'
      rw [rd_lt htd, ok_bind, rd_lt hi, ok_bind, hr', rd_lt (by omega), ok_bind, List.getD_eq_getElem _ _ (by omega)]
  rw [loop_text hrow, ok_bind, ← h.1, map_range_getD u.data [] (fun row => line ((row.getD (u.vars.idxOf v) []).map fmt))]
  simp [List.append_assoc]

theorem writeUncertain_eq (fmt : K → List Char) {x : VarTexts} {v : Nat} {names : List (List Char)} (hx : x.Named v names) (hc : 0 < x.card v)
    {set : List (UncertainSeries K)} (hne : set ≠ []) (hv : ∀ u ∈ set, v ∈ u.vars) (hu : ∀ u ∈ set, u.Fits v (x.card v)) :
    writeUncertain fmt x set v = ok (0, some (dataText names (set.map (fun u => u.data.map (fun row => (row.getD (u.vars.idxOf v) []).map fmt))))) := by
  unfold writeUncertain
  have hl : 0 < set.length := List.length_pos_iff.mpr hne
  simp only
  rw [if_neg (by simp [hc, hl]), indices_eq, if_pos hv, ok_bind]
  simp only
  rw [printFields_eq (fun i hi => stateName_eq hx hi), names_range hx, ok_bind]
  rw [loop_text (g := fun s => ((set.map (fun u => (u.data.map (fun row => line ((row.getD (u.vars.idxOf v) []).map fmt))).flatten ++ ['\n'])).getD s []))]
  · rw [ok_bind]
    have := map_range_getD (set.map (fun u => (u.data.map (fun row => line ((row.getD (u.vars.idxOf v) []).map fmt))).flatten ++ ['\n'])) [] id
    rw [List.length_map] at this
    simp only [id] at this
    rw [this]
    simp [dataText, line, List.append_assoc, List.map_map, Function.comp_def]
  · intro s hs text
    rw [rd_lt hs, ok_bind, rd_lt (by simpa using hs), ok_bind, List.getElem_map, writeUncertainSeries_eq fmt (hu _ (List.getElem_mem hs))]
    rw [List.getD_eq_getElem _ _ (by simpa using hs), List.getElem_map]

theorem writeUncertain_refuses (fmt : K → List Char) (x : VarTexts) (set : List (UncertainSeries K)) (v : Nat)
    (h : x.card v = 0 ∨ set = [] ∨ ∃ u ∈ set, v ∉ u.vars) : writeUncertain fmt x set v = ok (EINVAL, none) := by
  unfold writeUncertain
  simp only
  by_cases h1 : ¬ (0 < x.card v ∧ 0 < set.length)
  · rw [if_pos h1]
  · rw [if_neg h1, indices_eq, if_neg, ok_bind]
    intro hall
    rcases h with h | h | ⟨u, hu, hn⟩
    · exact h1 (by omega)
    · exact h1 (by simp [h])
    · exact hn (hall u hu)

/-! ## `nipinference` -/

/-- what the inference gave for a series -/
structure Smoothed (f : NetFile K) (v : Nat) (ts : TimeSeries) (u : UncertainSeries K) : Prop where
  vars : u.vars = [v]
  length : u.length = ts.length
  rows : u.data.length = ts.length
  row : ∀ row ∈ u.data, row.map List.length = [f.card v]
  value : ∀ (t : Nat) row, u.data[t]? = some row → row = [NetFile.reply f (tsSees (fun _ => true) ts) ts.length t v]

theorem inferAll_spec {f : NetFile K} (hf : f.Valid) (htm : f.Temporal) {s : Interface} (hs : IsInterface f s) (lg : Option (Logs K)) {v : Nat} (hv : v ∈ f.vars) :
    ∀ (set : List TimeSeries), (∀ ts ∈ set, About f ts) → ∀ (acc : List (UncertainSeries K)) (m : Model K) (w : World K), Model.Holds f.net m w →
    InterfaceOk f.net m s → ∃ ucs m', set.foldlM (fun (st : List (UncertainSeries K) × Model K) ts => do
      let (r, _, m) ← forwardBackward lg s (fun _ => true) ts [v] st.2
      ok (st.1 ++ [{ vars := [v], length := ts.length, data := r }], m)) (acc, m) = ok (acc ++ ucs, m') ∧ List.Forall₂ (Smoothed f v) set ucs ∧
      (∃ w', Model.Holds f.net m' w') ∧ InterfaceOk f.net m' s := by
  intro set
  induction set with
  | nil =>
    intro _ acc m w h hi
    exact ⟨[], m, by rw [List.append_nil]; rfl, List.Forall₂.nil, ⟨w, h⟩, hi⟩
  | cons ts l ih =>
    intro ha acc m w h hi
    obtain ⟨r, ll, m1, e1, e2, ⟨w1, e3⟩, e4, _, e6, _, e5⟩ := smooth_all hf htm hs (ha ts (by simp)) (fun _ => true) lg (vars := [v]) (by simpa using hv) h.carries hi
    obtain ⟨ucs, m', g1, g2, g3, g4⟩ := ih (fun a h => ha a (by simp [h])) (acc ++ [{ vars := [v], length := ts.length, data := r }]) m1 w1 e3 e4
    refine ⟨{ vars := [v], length := ts.length, data := r } :: ucs, m', ?_, List.Forall₂.cons ⟨rfl, rfl, e2, ?_, ?_⟩ g2, g3, g4⟩
    · rw [List.foldlM_cons, e1]
      simp only [ok_bind]
      rw [g1]
      simp [List.append_assoc]
    · simpa using e6
    · intro t row hr
      simpa using e5 t row hr

theorem Smoothed.fits {f : NetFile K} {v : Nat} {ts : TimeSeries} {u : UncertainSeries K} (h : Smoothed f v ts u) : u.Fits v (f.card v) := by
  refine ⟨by rw [h.rows, h.length], ?_⟩
  intro row hrow
  rw [h.vars]
  have := h.row row hrow
  cases row with
  | nil => simp at this
  | cons r l => exact ⟨r, by simp, by simp at this; exact this.1⟩

/-! ## `nipmap` -/

/-- place `k` has the greatest number of the list, and is the first such place -/
def FirstMax (r : List K) (k : Nat) : Prop := ∃ a, r[k]? = some a ∧ (∀ b ∈ r, b ≤ a) ∧ ∀ (j : Nat) b, j < k → r[j]? = some b → b < a

theorem mapValue_spec (r : List K) : ∃ k a, mapValue r.length r = ok (k, a) ∧
    ((∀ b ∈ r, b ≤ 0) ∧ k = 0 ∨ FirstMax r k) := by
  unfold mapValue
  obtain ⟨⟨k, a⟩, e1, e2⟩ := loop_inv (n := r.length) (s := ((0, 0) : Nat × K)) (f := fun j (st : Nat × K) => do
      let m ← rd r j
      ok (if m > st.2 then (j, m) else st))
    (fun i st => (∀ (j : Nat) b, j < i → r[j]? = some b → b ≤ st.2) ∧ 0 ≤ st.2 ∧ (st = (0, 0) ∨ st.1 < i ∧ r[st.1]? = some st.2 ∧ ∀ (j : Nat) b, j < st.1 → r[j]? = some b → b < st.2))
    ⟨fun j b hj => absurd hj (Nat.not_lt_zero j), le_refl _, Or.inl rfl⟩
    (by
      rintro i hi ⟨k, a⟩ ⟨h1, h0, h2⟩
      refine ⟨_, by rw [rd_lt hi, ok_bind], ?_⟩
      simp only at h1 h0 h2
      have hri : r[i]? = some r[i] := List.getElem?_eq_getElem hi
      by_cases hgt : r[i] > a
      · rw [if_pos hgt]
        refine ⟨?_, le_trans h0 (le_of_lt hgt), Or.inr ⟨Nat.lt_succ_self i, hri, ?_⟩⟩
        · intro j b hj hb
          rcases Nat.lt_succ_iff_lt_or_eq.mp hj with h | rfl
          · exact le_trans (h1 j b h hb) (le_of_lt hgt)
          · rw [hri] at hb; cases hb; exact le_refl _
        · intro j b hj hb
          exact lt_of_le_of_lt (h1 j b hj hb) hgt
      · rw [if_neg hgt]
        refine ⟨?_, h0, ?_⟩
        · intro j b hj hb
          rcases Nat.lt_succ_iff_lt_or_eq.mp hj with h | rfl
          · exact h1 j b h hb
          · rw [hri] at hb; cases hb; exact not_lt.mp hgt
        · rcases h2 with h2 | ⟨h2, h3, h4⟩
          · exact Or.inl h2
          · exact Or.inr ⟨Nat.lt_succ_of_lt h2, h3, h4⟩)
  refine ⟨k, a, e1, ?_⟩
  obtain ⟨h1, h0, h2⟩ := e2
  have hall : ∀ b ∈ r, b ≤ a := by
    intro b hb
    obtain ⟨j, hj⟩ := List.mem_iff_getElem?.mp hb
    exact h1 j b (List.getElem?_eq_some_iff.mp hj).1 hj
  rcases h2 with h2 | ⟨h2, h3, h4⟩
  · cases h2
    exact Or.inl ⟨hall, rfl⟩
  · exact Or.inr ⟨a, h3, hall, h4⟩

/-- the greatest number of a list of numbers that are not negative -/
theorem mapValue_nonneg {r : List K} (hr : r ≠ []) (hn : ∀ b ∈ r, 0 ≤ b) {k : Nat} {a : K} (h : mapValue r.length r = ok (k, a)) : FirstMax r k := by
  obtain ⟨k', a', e, h'⟩ := mapValue_spec r
  rw [h] at e
  cases e
  rcases h' with ⟨h1, rfl⟩ | h'
  · cases r with
    | nil => exact absurd rfl hr
    | cons b l =>
      refine ⟨b, rfl, fun c hc => le_trans (h1 c hc) (hn b (by simp)), fun j _ hj => absurd hj (Nat.not_lt_zero j)⟩
  · exact h'

theorem mapValue_lt {r : List K} (hr : r ≠ []) {k : Nat} {a : K} (h : mapValue r.length r = ok (k, a)) : k < r.length := by
  obtain ⟨k', a', e, h'⟩ := mapValue_spec r
  rw [h] at e
  cases e
  rcases h' with ⟨_, rfl⟩ | ⟨b, h', _⟩
  · exact List.length_pos_iff.mpr hr
  · exact (List.getElem?_eq_some_iff.mp h').1

/-- the words of a line of `nipmap`: names of states, and of the most probable ones if no number is negative -/
def MapWord (x : VarTexts) (v : Nat) (r : List K) (w : List Char) : Prop :=
  ∃ names k, x.Named v names ∧ names[k]? = some w ∧ ((∀ b ∈ r, 0 ≤ b) → FirstMax r k)

theorem mapName_spec {x : VarTexts} {vars : List Nat} (hx : ∀ v ∈ vars, 0 < x.card v ∧ ∃ names, x.Named v names) {row : List (List K)}
    (hrow : row.map List.length = vars.map x.card) {i : Nat} (hi : i < vars.length) :
    ∃ w, mapName x vars row i = ok w ∧ ∃ r, row[i]? = some r ∧ MapWord x vars[i] r w := by
  have hl : row.length = vars.length := by simpa using congrArg List.length hrow
  have hi' : i < row.length := by omega
  obtain ⟨hc, names, hn⟩ := hx _ (List.getElem_mem hi)
  have hrl : row[i].length = x.card vars[i] := by
    have := congrArg (fun l => l[i]?) hrow
    simp only [List.getElem?_map, List.getElem?_eq_getElem hi, List.getElem?_eq_getElem hi', Option.map_some, Option.some.injEq] at this
    exact this
  have hne : row[i] ≠ [] := by intro h; rw [h] at hrl; simp at hrl; omega
  obtain ⟨k, a, e, _⟩ := mapValue_spec row[i]
  have hk := mapValue_lt hne e
  refine ⟨names.getD k [], ?_, row[i], List.getElem?_eq_getElem hi', names, k, hn, ?_, fun h0 => mapValue_nonneg hne h0 e⟩
  · unfold mapName
    rw [rd_lt hi, ok_bind, rd_lt hi', ok_bind, ← hrl, e, ok_bind]
    exact stateName_eq hn (by omega)
  · have : k < names.length := by rw [hn.2]; omega
    rw [List.getD_eq_getElem _ _ this, List.getElem?_eq_getElem this]

theorem mapRow_spec {x : VarTexts} {vars : List Nat} (hx : ∀ v ∈ vars, 0 < x.card v ∧ ∃ names, x.Named v names) (hne : vars ≠ []) {row : List (List K)}
    (hrow : row.map List.length = vars.map x.card) :
    ∃ ws : List (List Char), ws.length = vars.length ∧ (∀ text, mapRow x vars row text = ok (text ++ line ws)) ∧
      ∀ (i v : Nat) (w : List Char), vars[i]? = some v → ws[i]? = some w → ∃ r, row[i]? = some r ∧ MapWord x v r w := by
  have hlen := List.length_pos_iff.mpr hne
  choose! g hg1 hg2 using fun i (hi : i < vars.length) => mapName_spec hx hrow hi
  refine ⟨(List.range vars.length).map g, by simp, ?_, ?_⟩
  · intro text
    unfold mapRow
    rw [loop_text (g := fun i => g i ++ [','])]
    · rw [ok_bind, if_neg (by omega), hg1 _ (by omega), ok_bind]
      unfold line
      obtain ⟨n, hn⟩ : ∃ n, vars.length = n + 1 := ⟨vars.length - 1, by omega⟩
      rw [hn, Nat.add_sub_cancel]
      congr 1
      clear hn
      have key : ((List.range n).map (fun i => g i ++ [','])).flatten ++ g n = List.intercalate [','] ((List.range (n + 1)).map g) := by
        induction n with
        | zero => simp [List.intercalate]
        | succ n ih =>
          rw [List.range_succ, List.map_append, List.flatten_append, List.range_succ, List.map_append (l₁ := List.range (n + 1)), List.map_singleton,
            List.map_singleton, intercalate_concat, ← ih, if_neg (by simp)]
          simp [List.append_assoc]
      rw [List.append_assoc, List.append_assoc, ← key]
      simp [List.append_assoc]
    · intro i hi text
      rw [hg1 i (by omega), ok_bind, List.append_assoc]
      rfl
  · intro i v w hv hw
    obtain ⟨hi, rfl⟩ := List.getElem?_eq_some_iff.mp hv
    simp only [List.getElem?_map, List.getElem?_range hi, Option.map_some, Option.some.injEq] at hw
    obtain ⟨r, h1, h2⟩ := hg2 i hi
    exact ⟨r, h1, hw ▸ h2⟩

/-- a series whose array of hidden variables is that of variables of the network, and not empty -/
structure HasHidden (f : NetFile K) (ts : TimeSeries) : Prop where
  num : ts.numHidden = ts.hidden.length
  ne : ts.hidden ≠ []
  sub : ∀ v ∈ ts.hidden, v ∈ f.vars

/-- the lines for a series -/
structure Mapped (f : NetFile K) (x : VarTexts) (ts : TimeSeries) (rows : List (List (List Char))) : Prop where
  length : rows.length = ts.length
  words : ∀ row ∈ rows, row.length = ts.hidden.length
  word : ∀ (t i v : Nat) row w, rows[t]? = some row → ts.hidden[i]? = some v → row[i]? = some w →
    MapWord x v (NetFile.reply f (tsSees (fun _ => true) ts) ts.length t v) w

theorem mapAll_spec {f : NetFile K} (hf : f.Valid) (htm : f.Temporal) {s : Interface} (hs : IsInterface f s) {x : VarTexts}
    (hx : ∀ v ∈ f.vars, x.card v = f.card v ∧ ∃ names, x.Named v names) :
    ∀ (set : List TimeSeries), (∀ ts ∈ set, About f ts ∧ HasHidden f ts) → ∀ (text : List Char) (m : Model K) (w : World K), Model.Holds f.net m w →
    InterfaceOk f.net m s → ∃ series m', mapAll x s set (text, m) =
      ok (text ++ (series.map (fun rows => (rows.map line).flatten ++ ['\n'])).flatten, m') ∧ List.Forall₂ (Mapped f x) set series := by
  intro set
  induction set with
  | nil => intro _ text m w _ _; exact ⟨[], m, by unfold mapAll; simp [List.foldlM], List.Forall₂.nil⟩
  | cons ts l ih =>
    intro ha text m w h hi
    obtain ⟨ha1, ha2⟩ := ha ts (by simp)
    obtain ⟨r, ll, m1, e1, e2, ⟨w1, e3⟩, e4, _, e6, _, e5⟩ := smooth_all hf htm hs ha1 (fun _ => true) none (vars := ts.hidden) ha2.sub h.carries hi
    have hvars : ts.hidden.take ts.numHidden.toNat = ts.hidden := by rw [ha2.num]; simp
    have hx' : ∀ v ∈ ts.hidden, 0 < x.card v ∧ ∃ names, x.Named v names := fun v hv =>
      ⟨by rw [(hx v (ha2.sub v hv)).1]; exact hf.states v (ha2.sub v hv), (hx v (ha2.sub v hv)).2⟩
    have hcard : ts.hidden.map f.card = ts.hidden.map x.card := List.map_congr_left fun v hv => ((hx v (ha2.sub v hv)).1).symm
    have hstep : ∀ t, t < ts.length → ∃ ws : List (List Char), ws.length = ts.hidden.length ∧
        (∀ text, (do
          let row ← rd r t
          mapRow x ts.hidden row text) = ok (text ++ line ws)) ∧
        ∀ (i v : Nat) (w : List Char), ts.hidden[i]? = some v → ws[i]? = some w → ∃ q, (r.getD t [])[i]? = some q ∧ MapWord x v q w := by
      intro t ht
      have htr : t < r.length := by omega
      obtain ⟨ws, h1, h2, h3⟩ := mapRow_spec hx' ha2.ne (row := r[t]) (by rw [e6 _ (List.getElem_mem htr), hcard])
      refine ⟨ws, h1, fun text => by rw [rd_lt htr, ok_bind, h2], ?_⟩
      rw [List.getD_eq_getElem _ _ htr]
      exact h3
    choose! g hg1 hg2 hg3 using hstep
    obtain ⟨rows, hrows⟩ : ∃ rows, rows = (List.range ts.length).map g := ⟨_, rfl⟩
    obtain ⟨series, m', g1, g2⟩ := ih (fun a h => ha a (by simp [h])) (text ++ (rows.map line).flatten ++ ['\n']) m1 w1 e3 e4
    refine ⟨rows :: series, m', ?_, List.Forall₂.cons ⟨by simp [hrows], ?_, ?_⟩ g2⟩
    · unfold mapAll at g1 ⊢
      rw [List.foldlM_cons]
      simp only [hvars]
      rw [e1]
      simp only [ok_bind]
      rw [loop_text (fun t ht => hg2 t ht), ok_bind]
      have : ((List.range ts.length).map (fun t => line (g t))).flatten = (rows.map line).flatten := by rw [hrows, List.map_map]; rfl
      rw [this]
      simp only [ok_bind]
      rw [g1]
      simp [List.append_assoc]
    · intro row hrow
      rw [hrows] at hrow
      obtain ⟨t, ht, rfl⟩ := List.mem_map.mp hrow
      exact hg1 t (List.mem_range.mp ht)
    · intro t i v row w' hr hv hw
      rw [hrows] at hr
      have ht : t < ts.length := by simpa using (List.getElem?_eq_some_iff.mp hr).1
      simp only [List.getElem?_map, List.getElem?_range ht, Option.map_some, Option.some.injEq] at hr
      subst hr
      obtain ⟨q, h1, h2⟩ := hg3 t ht i v w' hv hw
      have htr : t < r.length := by omega
      rw [List.getD_eq_getElem _ _ htr, e5 t _ (List.getElem?_eq_getElem htr), List.getElem?_map, hv] at h1
      simp only [Option.map_some, Option.some.injEq] at h1
      rw [h1]
      exact h2

/-! ## `nipnext` -/

/-- the line for a series -/
def Predicted (f : NetFile K) (lg : Logs K) (fmt : K → List Char) (v : Nat) (ts : TimeSeries) (row : List (List Char)) : Prop :=
  row = (NetFile.reply f (tsSees (fun _ => true) ts) ts.length (ts.length - 1) v).map (fun a => fmt (lg.log a))

theorem nextAll_spec {f : NetFile K} (hf : f.Valid) (htm : f.Temporal) {s : Interface} (hs : IsInterface f s) {x : VarTexts} (lg : Logs K) (fmt : K → List Char)
    {v : Nat} (hv : v ∈ f.vars) (hx : x.card v = f.card v) :
    ∀ (set : List TimeSeries), (∀ ts ∈ set, About f ts) → ∀ (text : List Char) (m : Model K) (w : World K), Model.Holds f.net m w →
    InterfaceOk f.net m s → ∃ rows m', nextAll lg fmt x s v set (text, m) = ok (text ++ (rows.map line).flatten, m') ∧
      List.Forall₂ (Predicted f lg fmt v) (set.filter (fun ts => decide (0 < ts.length))) rows := by
  intro set
  induction set with
  | nil => intro _ text m w _ _; exact ⟨[], m, by unfold nextAll; simp [List.foldlM], List.Forall₂.nil⟩
  | cons ts l ih =>
    intro ha text m w h hi
    obtain ⟨r, ll, m1, e1, e2, ⟨w1, e3⟩, e4, _, e6, e5⟩ := forward_all hf htm hs (ha ts (by simp)) (fun _ => true) (some lg) (vars := [v]) (by simpa using hv) h hi
    have hsearch : loop [v].length (fun i (j : Option Nat) => do
        let w ← rd [v] i
        ok (if v == w then some i else j)) none = ok (some 0) := by
      show loop 1 _ none = _
      rw [loop_succ]
      simp [rd]
    by_cases h0 : 0 < ts.length
    · obtain ⟨n, hn⟩ : ∃ n, ts.length = n + 1 := ⟨ts.length - 1, by omega⟩
      have hnr : n < r.length := by omega
      have hshape := e6 _ (List.getElem_mem hnr)
      obtain ⟨q, hq, hql⟩ : ∃ q, r[n] = [q] ∧ q.length = f.card v := by
        match hr : r[n], hshape with
        | [q], e => exact ⟨q, rfl, by simpa using e⟩
        | [], e => simp at e
        | _ :: _ :: _, e => simp at e
      have hpost : getPosterior { vars := [v], length := ts.length, data := r } v ((ts.length : Int) - 1) = ok (some q) := by
        unfold getPosterior
        simp only [hsearch, ok_bind]
        rw [if_neg (by omega), show ((ts.length : Int) - 1).toNat = n by omega, rd_lt hnr, ok_bind, hq]
        simp [rd]
      obtain ⟨row, hrow⟩ : ∃ row, row = q.map (fun a => fmt (lg.log a)) := ⟨_, rfl⟩
      obtain ⟨rows, m', g1, g2⟩ := ih (fun a h => ha a (by simp [h])) (text ++ line row) m1 w1 e3 e4
      refine ⟨row :: rows, m', ?_, ?_⟩
      · have hprint : printRow (x.card v) (fun j => do
            let a ← rd q j
            ok (fmt (lg.log a))) text = ok (text ++ line row) := by
          rw [printRow_eq (by rw [hx]; exact hf.states v hv) (w := fun j => fmt (lg.log (q.getD j 0)))]
          · rw [hx, ← hql, map_range_getD q 0 (fun a => fmt (lg.log a)), ← hrow]
          · intro j hj
            rw [rd_lt (by omega), ok_bind, List.getD_eq_getElem _ _ (by omega)]
        unfold nextAll at g1 ⊢
        rw [List.foldlM_cons, e1]
        simp only [ok_bind]
        rw [hpost]
        simp only [ok_bind]
        rw [hprint]
        simp only [ok_bind]
        refine Eq.trans g1 ?_
        simp [List.append_assoc]
      · rw [List.filter_cons_of_pos (by simpa using h0)]
        refine List.Forall₂.cons ?_ g2
        have := e5 n _ (List.getElem?_eq_getElem hnr)
        rw [hq] at this
        simp only [List.map_cons, List.map_nil, List.cons.injEq, and_true] at this
        unfold Predicted
        rw [hrow, this, hn, Nat.add_sub_cancel]
    · have hl : ts.length = 0 := by omega
      have hpost : getPosterior { vars := [v], length := ts.length, data := r } v ((ts.length : Int) - 1) = ok none := by
        unfold getPosterior
        simp only [hsearch, ok_bind]
        rw [if_pos (by omega)]
      obtain ⟨rows, m', g1, g2⟩ := ih (fun a h => ha a (by simp [h])) text m1 w1 e3 e4
      refine ⟨rows, m', ?_, by rw [List.filter_cons_of_neg (by simpa using h0)]; exact g2⟩
      unfold nextAll at g1 ⊢
      rw [List.foldlM_cons, e1]
      simp only [ok_bind]
      rw [hpost]
      simp only [ok_bind]
      exact g1

end Nip
