import Verif.ProgramsLemmas
import Verif.Props.Read
import Verif.Props.Smoothing

/-!
# C75, C76, C81: what `nipinference`, `nipmap` and `nipnext` write

The programs are run after the network file was read and the time series are there.  The specification of the numbers is the network unrolled
over time (`Verif/Spec/Unrolled.lean`), that of the text is `Verif/Spec/Lines.lean`.
-/

namespace Nip.Props

open Nip Res Spec

set_option linter.unusedSectionVars false

variable {K : Type} [Field K] [LinearOrder K] [IsStrictOrderedRing K]

/-- What is seen in a series, by time step and variable. -/
noncomputable def allSeen (ts : TimeSeries) : Nat → Nat → Int := dataSees (fun _ => true) ts.observed ts.data

/-- The data of the series are possible. -/
def Possible (f : NetFile K) (ts : TimeSeries) : Prop := f.unrolledTotal (allSeen ts) ts.length (fun _ => True) ≠ 0

/-- A time series about variables of the network: the arrays have their sizes and no variable is observed twice. -/
structure SeriesOf (f : NetFile K) (ts : TimeSeries) : Prop where
  wf : ts.WellFormed
  nodup : ts.observed.Nodup
  sub : ∀ v ∈ ts.observed, v ∈ f.vars

/-- The texts belong to the variables of the file. -/
structure TextsOf (f : NetFile K) (x : VarTexts) : Prop where
  texts : x.Model f.vars
  card : ∀ v ∈ f.vars, x.card v = f.card v

theorem SeriesOf.about {f : NetFile K} {ts : TimeSeries} (h : SeriesOf f ts) : About f ts := ⟨h.wf, h.nodup, h.sub⟩

/-! ## C75 -/

/-- The lines of a series: one for each time step, with one number for each state; if the data are possible, these are the conditional
probabilities given all data of the series. -/
def SmoothedLines (f : NetFile K) (fmt : K → List Char) (v : Nat) (ts : TimeSeries) (rows : List (List (List Char))) : Prop :=
  rows.length = ts.length ∧ (∀ row ∈ rows, row.length = f.card v) ∧
    (Possible f ts → rows = (List.range ts.length).map (fun t => (f.unrolledPosterior (allSeen ts) ts.length t v).map fmt))

/-- the lines of all series, possible or not -/
theorem inference_lines (ptr : Nat) {f : NetFile K} (hf : f.Valid) (ht : f.Temporal) {x : VarTexts} (hx : TextsOf f x) (lg : Logs K)
    (fmt : K → List Char) {set : List TimeSeries} (hne : set ≠ []) (hset : ∀ ts ∈ set, SeriesOf f ts) {v : Nat} (hv : v ∈ f.vars)
    {names : List (List Char)} (hn : x.Named v names) :
    ∃ m s series, NetFile.parseModel ptr f = ok (some (m, s)) ∧
      nipinference lg fmt x s f.vars (x.symbol v) set m = ok (0, some (dataText names series)) ∧
      List.Forall₂ (fun ts rows => rows = (List.range ts.length).map (fun t => (NetFile.reply f (allSeen ts) ts.length t v).map fmt)) set series := by
  obtain ⟨m, s, h1, _, h3, h4, h5, h6⟩ := interface_spec ptr hf ht
  obtain ⟨ucs, m', e1, e2, _, _⟩ := inferAll_spec hf ht ⟨h5, h6⟩ (some lg) hv set (fun ts h => (hset ts h).about) [] m _ h3 h4
  have hlen : 0 < set.length := List.length_pos_iff.mpr hne
  have hul : ucs ≠ [] := by
    intro h
    rw [h] at e2
    cases e2
    exact hne rfl
  have hall : ∀ u ∈ ucs, ∃ ts ∈ set, Smoothed f v ts u := by
    intro u hu
    obtain ⟨i, hi, rfl⟩ := List.mem_iff_getElem.mp hu
    have hi' : i < set.length := by rw [e2.length_eq]; exact hi
    exact ⟨set[i], List.getElem_mem hi', e2.get hi' hi⟩
  have hfit : ∀ u ∈ ucs, u.Fits v (x.card v) := by
    intro u hu
    obtain ⟨ts, _, h⟩ := hall u hu
    rw [hx.card v hv]
    exact h.fits
  have hin : ∀ u ∈ ucs, v ∈ u.vars := by
    intro u hu
    obtain ⟨ts, _, h⟩ := hall u hu
    rw [h.vars]; simp
  refine ⟨m, s, ucs.map (fun u => u.data.map (fun row => (row.getD (u.vars.idxOf v) []).map fmt)), h1, ?_, ?_⟩
  · unfold nipinference inferAll
    rw [if_neg (by omega), (search_symbol hx.texts _ _).2 ⟨hv, rfl⟩]
    simp only
    rw [e1, ok_bind]
    simp only [List.nil_append]
    rw [writeUncertain_eq fmt hn (by rw [hx.card v hv]; exact hf.states v hv) hul hin hfit, ok_bind]
  · rw [List.forall₂_map_right_iff]
    refine e2.imp fun ts u h => ?_
    have hi : u.vars.idxOf v = 0 := by rw [h.vars]; simp
    apply List.ext_getElem
    · simp [h.rows]
    · intro t h1 h2
      have ht : t < u.data.length := by simpa using h1
      have := h.value t _ (List.getElem?_eq_getElem ht)
      rw [List.getElem_map, List.getElem_map, this, hi, List.getElem_range]
      rfl

/-- **C75** (partial).  For every valid file whose temporal links make sense, all texts, all series about its variables and each of its
variables, `nipinference` succeeds and writes the names of the states and, for each series, the smoothed distributions.  What is missing: files
with other temporal links (`NetFile.Temporal`), for which already inference is wrong (C53), and series with impossible data. -/
theorem C75_smoothed_partial (ptr : Nat) {f : NetFile K} (hf : f.Valid) (ht : f.Temporal) {x : VarTexts} (hx : TextsOf f x) (lg : Logs K)
    (fmt : K → List Char) {set : List TimeSeries} (hne : set ≠ []) (hset : ∀ ts ∈ set, SeriesOf f ts) {v : Nat} (hv : v ∈ f.vars)
    {names : List (List Char)} (hn : x.Named v names) :
    ∃ m s series, NetFile.parseModel ptr f = ok (some (m, s)) ∧
      nipinference lg fmt x s f.vars (x.symbol v) set m = ok (0, some (dataText names series)) ∧
      List.Forall₂ (SmoothedLines f fmt v) set series := by
  obtain ⟨m, s, series, h1, h2, h3⟩ := inference_lines ptr hf ht hx lg fmt hne hset hv hn
  refine ⟨m, s, series, h1, h2, h3.imp fun ts rows h => ?_⟩
  subst h
  refine ⟨by simp, ?_, ?_⟩
  · intro row hrow
    obtain ⟨t, _, rfl⟩ := List.mem_map.mp hrow
    rw [List.length_map, reply_length]
  · intro hp
    refine List.map_congr_left fun t ht => ?_
    rw [reply_possible hf (List.mem_range.mp ht) hv hp]

/-- **C75**, the second half: `write_uncertainseries` refuses a set in which a series lacks the variable (or an empty set), and writes nothing. -/
theorem C75_refused (fmt : K → List Char) (x : VarTexts) (set : List (UncertainSeries K)) (v : Nat)
    (h : set = [] ∨ ∃ u ∈ set, v ∉ u.vars) : writeUncertain fmt x set v = ok (EINVAL, none) :=
  writeUncertain_refuses fmt x set v (Or.inr h)

/-- An unknown name or no data: the program gives up and writes nothing. -/
theorem C75_unknown (lg : Logs K) (fmt : K → List Char) (x : VarTexts) (s : Interface) (vars : List Nat) (name : List Char) (set : List TimeSeries)
    (m : Model K) (h : set = [] ∨ ∀ v ∈ vars, x.symbol v ≠ name) : nipinference lg fmt x s vars name set m = ok (-1, none) := by
  unfold nipinference
  rcases h with rfl | h
  · rfl
  · split
    · rfl
    · have : x.search vars name = none := by
        unfold VarTexts.search
        rw [List.find?_eq_none]
        intro v hv
        simpa using fun e => h v hv e.symm
      rw [this]

/-! ## C76 -/

/-- The lines of a series: one for each time step, with the name of one state for each hidden variable; if the data are possible, a state with
the greatest conditional probability given all data of the series, and the first of these. -/
def MostProbable (f : NetFile K) (x : VarTexts) (ts : TimeSeries) (rows : List (List (List Char))) : Prop :=
  rows.length = ts.length ∧ (∀ row ∈ rows, row.length = ts.hidden.length) ∧
    ∀ (t i v : Nat) row w, rows[t]? = some row → ts.hidden[i]? = some v → row[i]? = some w →
      ∃ names k, x.Named v names ∧ names[k]? = some w ∧ (Possible f ts → FirstMax (f.unrolledPosterior (allSeen ts) ts.length t v) k)

theorem posterior_nonneg {f : NetFile K} (hf : f.Valid) (seen : Nat → Nat → Int) {n t : Nat} (ht : t < n) (v : Nat) :
    ∀ a ∈ f.unrolledPosterior seen n t v, 0 ≤ a := by
  intro a ha
  unfold NetFile.unrolledPosterior at ha
  obtain ⟨i, _, rfl⟩ := List.mem_map.mp ha
  refine div_nonneg ?_ (total_nonneg hf seen n)
  obtain ⟨k, rfl⟩ : ∃ k, n = t + 1 + k := ⟨n - (t + 1), by omega⟩
  rw [unrolledTotal_eq f seen t k (fun x => x v = i)]
  refine sumOver_nonneg (fun z => ?_) _
  split
  · exact mul_nonneg (mul_nonneg (slice_nonneg hf seen t z) (fwd_nonneg hf seen t z)) (bwd_nonneg hf seen k t z)
  · exact le_refl _

theorem reply_nonneg {f : NetFile K} (hf : f.Valid) (seen : Nat → Nat → Int) {n t : Nat} (ht : t < n) (v : Nat) :
    ∀ a ∈ NetFile.reply f seen n t v, 0 ≤ a := by
  unfold NetFile.reply
  split
  · exact posterior_nonneg hf _ Nat.one_pos v
  · exact posterior_nonneg hf _ ht v

theorem intercalate_cons {α : Type} (sep a : List α) (l : List (List α)) : List.intercalate sep (a :: l) = a ++ (l.map (fun b => sep ++ b)).flatten := by
  induction l generalizing a with
  | nil => simp [List.intercalate]
  | cons b l ih =>
    have := ih b
    simp only [List.intercalate, List.intersperse, List.flatten_cons, List.map_cons] at this ⊢
    rw [this]
    simp [List.append_assoc]

theorem header_line (g : Nat → List Char) {l : List Nat} (h : 0 < l.length) :
    g l[0] ++ ((List.range (l.length - 1)).map (fun i => [','] ++ g (l.getD (i + 1) 0))).flatten ++ ['\n'] = line (l.map g) := by
  unfold line
  cases l with
  | nil => simp at h
  | cons a l =>
    rw [List.map_cons, intercalate_cons]
    have := map_range_getD l 0 (fun v => [','] ++ g v)
    simp only [List.length_cons, Nat.add_sub_cancel, List.getD_cons_succ, List.getElem_cons_zero, this, List.map_map, Function.comp_def]

/-- The series has hidden variables, all of them variables of the network. -/
structure HiddenOf (f : NetFile K) (ts : TimeSeries) : Prop where
  num : ts.numHidden = ts.hidden.length
  ne : ts.hidden ≠ []
  sub : ∀ v ∈ ts.hidden, v ∈ f.vars

/-- the lines of all series, possible or not -/
def FirstOfReplies (f : NetFile K) (x : VarTexts) (ts : TimeSeries) (rows : List (List (List Char))) : Prop :=
  rows.length = ts.length ∧ (∀ row ∈ rows, row.length = ts.hidden.length) ∧
    ∀ (t i v : Nat) row w, rows[t]? = some row → ts.hidden[i]? = some v → row[i]? = some w →
      ∃ names k, x.Named v names ∧ names[k]? = some w ∧ FirstMax (NetFile.reply f (allSeen ts) ts.length t v) k

theorem map_lines (ptr : Nat) {f : NetFile K} (hf : f.Valid) (ht : f.Temporal) {x : VarTexts} (hx : TextsOf f x)
    {ts : TimeSeries} {rest : List TimeSeries} (hset : ∀ t ∈ ts :: rest, SeriesOf f t ∧ HiddenOf f t) :
    ∃ m s series, NetFile.parseModel ptr f = ok (some (m, s)) ∧
      nipmap x s (ts :: rest) m = ok (0, some (dataText (ts.hidden.map x.symbol) series)) ∧
      List.Forall₂ (FirstOfReplies f x) (ts :: rest) series := by
  obtain ⟨m, s, h1, _, h3, h4, h5, h6⟩ := interface_spec ptr hf ht
  have hid := (hset ts (by simp)).2
  obtain ⟨series, m', e1, e2⟩ := mapAll_spec hf ht ⟨h5, h6⟩ (x := x) (fun v hv => ⟨hx.card v hv, hx.texts.named v hv⟩) (ts :: rest)
    (fun t h => ⟨(hset t h).1.about, ⟨(hset t h).2.num, (hset t h).2.ne, (hset t h).2.sub⟩⟩) (line (ts.hidden.map x.symbol)) m _ h3 h4
  have hlen : 0 < ts.hidden.length := List.length_pos_iff.mpr hid.ne
  refine ⟨m, s, series, h1, ?_, ?_⟩
  · unfold nipmap
    simp only
    rw [if_neg (by rw [hid.num]; omega), rd_lt hlen, ok_bind, hid.num, Int.toNat_natCast,
      loop_text (g := fun i => [','] ++ x.symbol (ts.hidden.getD (i + 1) 0)), ok_bind]
    · have htext : x.symbol ts.hidden[0] ++ ((List.range (ts.hidden.length - 1)).map (fun i => [','] ++ x.symbol (ts.hidden.getD (i + 1) 0))).flatten ++ ['\n'] =
          line (ts.hidden.map x.symbol) := by
        exact header_line x.symbol hlen
      rw [htext, e1, ok_bind]
      rfl
    · intro i hi text
      rw [rd_lt (by omega), ok_bind, List.getD_eq_getElem _ _ (by omega), List.append_assoc]
      rfl
  · refine e2.imp fun t rows h => ⟨h.length, h.words, ?_⟩
    intro k i v row w h1 h2 h3
    obtain ⟨names, j, g1, g2, g3⟩ := h.word k i v row w h1 h2 h3
    have hk : k < t.length := by rw [← h.length]; exact (List.getElem?_eq_some_iff.mp h1).1
    exact ⟨names, j, g1, g2, g3 (reply_nonneg hf _ hk v)⟩

/-- **C76** (partial).  For every valid file whose temporal links make sense and all series with hidden variables, `nipmap` succeeds and writes
the names of the hidden variables of the first series and then the lines of all series.  What is missing: other temporal links, and series with
impossible data (for which names of states are written all the same). -/
theorem C76_most_probable_partial (ptr : Nat) {f : NetFile K} (hf : f.Valid) (ht : f.Temporal) {x : VarTexts} (hx : TextsOf f x)
    {ts : TimeSeries} {rest : List TimeSeries} (hset : ∀ t ∈ ts :: rest, SeriesOf f t ∧ HiddenOf f t) :
    ∃ m s series, NetFile.parseModel ptr f = ok (some (m, s)) ∧
      nipmap x s (ts :: rest) m = ok (0, some (dataText (ts.hidden.map x.symbol) series)) ∧
      List.Forall₂ (MostProbable f x) (ts :: rest) series := by
  obtain ⟨m, s, series, h1, h2, h3⟩ := map_lines ptr hf ht hx hset
  refine ⟨m, s, series, h1, h2, ?_⟩
  rw [List.forall₂_iff_get] at h3 ⊢
  refine ⟨h3.1, fun a ha ha' => ?_⟩
  obtain ⟨g1, g2, g3⟩ := h3.2 a ha ha'
  refine ⟨g1, g2, fun t i v row w e1 e2 e3 => ?_⟩
  obtain ⟨names, k, k1, k2, k3⟩ := g3 t i v row w e1 e2 e3
  refine ⟨names, k, k1, k2, fun hp => ?_⟩
  have htl : t < ((ts :: rest).get ⟨a, ha⟩).length := by rw [← g1]; exact (List.getElem?_eq_some_iff.mp e1).1
  rw [reply_possible hf htl ((hset _ (List.get_mem _ _)).2.sub v (List.mem_of_getElem? e2)) hp] at k3
  exact k3

/-- Nothing hidden: the program fails, but the output file was emptied before. -/
theorem C76_nothing_hidden (x : VarTexts) (s : Interface) (ts : TimeSeries) (rest : List TimeSeries) (m : Model K) (h : ts.numHidden = 0) :
    nipmap x s (ts :: rest) m = ok (-1, some []) := by
  unfold nipmap
  simp only
  rw [if_pos h]

/-! ## C81 -/

/-- The line of a series: one number for each state; if the data are possible, the logarithms of the conditional probabilities at the last time
step given all data of the series. -/
def LastLine (f : NetFile K) (lg : Logs K) (fmt : K → List Char) (v : Nat) (ts : TimeSeries) (row : List (List Char)) : Prop :=
  row.length = f.card v ∧ (Possible f ts → row = (f.unrolledPosterior (allSeen ts) ts.length (ts.length - 1) v).map (fun a => fmt (lg.log a)))

/-- the lines of all series, possible or not -/
theorem next_lines (ptr : Nat) {f : NetFile K} (hf : f.Valid) (ht : f.Temporal) {x : VarTexts} (hx : TextsOf f x) (lg : Logs K)
    (fmt : K → List Char) {set : List TimeSeries} (hne : set ≠ []) (hset : ∀ ts ∈ set, SeriesOf f ts) {v : Nat} (hv : v ∈ f.vars)
    {names : List (List Char)} (hn : x.Named v names) :
    ∃ m s rows, NetFile.parseModel ptr f = ok (some (m, s)) ∧
      nipnext lg fmt x s f.vars (x.symbol v) set m = ok (0, line names ++ (rows.map line).flatten) ∧
      List.Forall₂ (fun ts row => row = (NetFile.reply f (allSeen ts) ts.length (ts.length - 1) v).map (fun a => fmt (lg.log a)))
        (set.filter (fun ts => decide (0 < ts.length))) rows := by
  obtain ⟨m, s, h1, _, h3, h4, h5, h6⟩ := interface_spec ptr hf ht
  obtain ⟨rows, m', e1, e2⟩ := nextAll_spec hf ht ⟨h5, h6⟩ lg fmt hv (hx.card v hv) set (fun ts h => (hset ts h).about) (line names) m _ h3 h4
  have hlen : 0 < set.length := List.length_pos_iff.mpr hne
  refine ⟨m, s, rows, h1, ?_, e2⟩
  unfold nipnext
  rw [if_neg (by omega), (search_symbol hx.texts _ _).2 ⟨hv, rfl⟩]
  simp only
  rw [printRow_eq (by rw [hx.card v hv]; exact hf.states v hv) (fun i hi => stateName_eq hn hi), names_range hn, ok_bind, List.nil_append, e1, ok_bind]

/-- **C81** (partial).  For every valid file whose temporal links make sense, `nipnext` succeeds and prints the names of the states and then one
line for each series that is not empty.  What is missing: other temporal links, and series with impossible data. -/
theorem C81_last_step_partial (ptr : Nat) {f : NetFile K} (hf : f.Valid) (ht : f.Temporal) {x : VarTexts} (hx : TextsOf f x) (lg : Logs K)
    (fmt : K → List Char) {set : List TimeSeries} (hne : set ≠ []) (hset : ∀ ts ∈ set, SeriesOf f ts) {v : Nat} (hv : v ∈ f.vars)
    {names : List (List Char)} (hn : x.Named v names) :
    ∃ m s rows, NetFile.parseModel ptr f = ok (some (m, s)) ∧
      nipnext lg fmt x s f.vars (x.symbol v) set m = ok (0, line names ++ (rows.map line).flatten) ∧
      List.Forall₂ (LastLine f lg fmt v) (set.filter (fun ts => decide (0 < ts.length))) rows := by
  obtain ⟨m, s, rows, h1, h2, h3⟩ := next_lines ptr hf ht hx lg fmt hne hset hv hn
  refine ⟨m, s, rows, h1, h2, ?_⟩
  rw [List.forall₂_iff_get] at h3 ⊢
  refine ⟨h3.1, fun a ha ha' => ?_⟩
  have h := h3.2 a ha ha'
  have hpos : 0 < ((set.filter (fun ts => decide (0 < ts.length))).get ⟨a, ha⟩).length := by
    have := (List.mem_filter.mp (List.get_mem (set.filter (fun ts => decide (0 < ts.length))) ⟨a, ha⟩)).2
    simpa using this
  unfold LastLine
  rw [h]
  refine ⟨by rw [List.length_map, reply_length], fun hp => ?_⟩
  rw [reply_possible hf (by omega) hv hp]

/-! ## Examples -/

/-- Texts for the variables of the hidden Markov model. -/
def hmmTexts : VarTexts where
  symbol := fun v => if v = 1 then "A".toList else if v = 2 then "A0".toList else "B".toList
  card := fun _ => 2
  names := fun _ => some ["no".toList, "yes".toList]

theorem hmmTexts_of : TextsOf hmm hmmTexts where
  texts := ⟨by decide, by decide, fun _ _ => ⟨_, rfl, rfl⟩⟩
  card := fun _ _ => rfl

theorem sightings_of : SeriesOf hmm sightings := ⟨sightings_wellFormed, by decide, by decide⟩

/-- A second series: one time step without values. -/
def blankSeries : TimeSeries := { sightings with length := 1, data := [[-1]] }

theorem blank_of : SeriesOf hmm blankSeries := ⟨⟨rfl, rfl, rfl, by decide⟩, by decide, by decide⟩

theorem both_of : ∀ ts ∈ [sightings, blankSeries], SeriesOf hmm ts ∧ HiddenOf hmm ts := by
  intro ts h
  rcases List.mem_cons.1 h with rfl | h
  · exact ⟨sightings_of, by decide, by decide, by decide⟩
  · rw [List.mem_singleton.1 h]
    exact ⟨blank_of, by decide, by decide, by decide⟩

/-- Digits for the examples: numbers from 1/2 on are printed as `h`, others as `l`. -/
def halves (a : ℚ) : List Char := if 1 / 2 ≤ a then ['h'] else ['l']

/-- The hypotheses of C75, C76 and C81 are met, and the first series is possible. -/
example : Possible hmm sightings ∧
    (∃ m s series, NetFile.parseModel 8 hmm = ok (some (m, s)) ∧
      nipinference exponents halves hmmTexts s hmm.vars "A".toList [sightings, blankSeries] m = ok (0, some (dataText ["no".toList, "yes".toList] series)) ∧
      List.Forall₂ (SmoothedLines hmm halves 1) [sightings, blankSeries] series) ∧
    (∃ m s series, NetFile.parseModel 8 hmm = ok (some (m, s)) ∧
      nipmap hmmTexts s [sightings, blankSeries] m = ok (0, some (dataText ["A".toList, "A0".toList] series)) ∧
      List.Forall₂ (MostProbable hmm hmmTexts) [sightings, blankSeries] series) ∧
    (∃ m s rows, NetFile.parseModel 8 hmm = ok (some (m, s)) ∧
      nipnext exponents halves hmmTexts s hmm.vars "B".toList [sightings, blankSeries] m = ok (0, line ["no".toList, "yes".toList] ++ (rows.map line).flatten) ∧
      List.Forall₂ (LastLine hmm exponents halves 3) [sightings, blankSeries] rows) :=
  ⟨sightings_possible,
    C75_smoothed_partial (v := 1) 8 hmm_valid hmm_temporal hmmTexts_of exponents halves (by simp) (fun ts h => (both_of ts h).1) (by decide) ⟨rfl, rfl⟩,
    C76_most_probable_partial 8 hmm_valid hmm_temporal hmmTexts_of both_of,
    C81_last_step_partial (v := 3) 8 hmm_valid hmm_temporal hmmTexts_of exponents halves (by simp) (fun ts h => (both_of ts h).1) (by decide) ⟨rfl, rfl⟩⟩

/-- The texts written. -/
def written (f : NetFile ℚ) (set : List TimeSeries) : Res (Option (List (List Char))) := do
  let r ← NetFile.parseModel 8 f
  match r with
  | none => ok none
  | some (m, s) => do
    let (_, a) ← nipinference exponents halves hmmTexts s f.vars "A".toList set m
    let (_, b) ← nipmap hmmTexts s set m
    let (_, c) ← nipnext exponents halves hmmTexts s f.vars "A".toList set m
    ok (some [a.getD [], b.getD [], c])

example : written hmm [sightings, blankSeries] = ok (some [
    "no,yes\nh,l\nh,l\nl,h\n\nh,l\n\n".toList,
    "A,A0\nno,no\nno,no\nyes,no\n\nno,no\n\n".toList,
    "no,yes\nl,h\nl,l\n".toList]) := by decide +kernel

end Nip.Props
