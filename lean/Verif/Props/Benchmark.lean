import Verif.BenchmarkLemmas
import Verif.Props.Train

/-!
# C94: `nipbenchmark` from the network file and the data file to the output file and the text

`Verif/Spec/Benchmark.lean` says what a leave-one-out test is; the learning in it is that of `Verif/Spec/Trained.lean`.
-/

namespace Nip.Props

open Nip Res Spec

set_option linter.unusedSectionVars false
set_option synthInstance.maxSize 1000

variable {K : Type} [Field K] [LinearOrder K] [IsStrictOrderedRing K]

/-- what is printed by a test that ends well -/
def benchmarkText (shown : K → List Char) (seed : List Char) (n : Nat) (a : K) : List Char :=
  "nipbenchmark:\n  Computing...\n  Random seed = ".toList ++ seed ++ ['\n'] ++ progressText n ++ "  Average log. likelihood = ".toList ++ shown a ++ "\n  ...done.\n".toList

/-- What `nipbenchmark` should do with at most so many calls of the learning function for each series: either for some series all these calls are not good enough; or for every
series there is a first one that is, and the network it leaves is used for the series that was left out: the conditional probabilities of the states of node `v` for each line
are written, and the mean log likelihood is printed. -/
def Tests (fmt shown : K → List Char) (seed : List Char) (names : List (List Char)) (v : Nat) (b : Trial K) (calls : Nat)
    (result : Option (Int × Option (List Char) × List Char)) : Prop :=
  (result = none ∧ ∃ k cs, k < b.data.length ∧ cs.length = calls ∧ AllBad (b.lesson k) cs) ∨
    ∃ (c : Nat → Spec.Call K) (series : List (List (List (List Char)))),
      (∀ k, k < b.data.length → ∃ cs, cs.length < calls ∧ LastGood (b.lesson k) cs (c k)) ∧ series.length = b.data.length ∧
      (∀ (k : Nat) e rows, b.data[k]? = some e → series[k]? = some rows → TestedRows fmt ((c k).net (b.lesson k)) v e rows) ∧
      result = some (0, some (dataText names series),
        benchmarkText shown seed b.data.length (meanLog b.log b.lowest (fun k => (c k).net (b.lesson k)) v b.data))

/-- What `nipbenchmark` should do with usable arguments. -/
def TestsRight (num : Numerals K) (d : NetText) (net data : List Char) : Prop :=
  ∀ (g : Logs K) (fmt shown : K → List Char) (rand : Nat → Nat → Nat → Nat → K) (seed : List Char), g.Law → (∀ b, 0 < b → b ≤ 1 → g.log b ≤ 0) →
    (∀ n k i j, 0 ≤ rand n k i j) → ∀ (ptr : Nat) (s : Session K), s.lex.readLine = true → s.g.Fresh →
    ∃ f info, f.Valid ∧ d.Describes num.value s.g.nextId f ∧ d.Tells s.g.nextId (columnNames data) (groupsOf data) info ∧
      ∀ (threshold least : K), 0 < threshold → threshold ≤ 1 → least < 0 → ∀ n ∈ d.nodes, ∀ calls, ∃ result,
        benchmarkMain g shown fmt num ptr s rand seed calls net data (some threshold) (some least) n.name true = ok result ∧
          Tests fmt shown seed n.states (s.g.nextId + d.place n.name)
            { file := f, data := info, rand := rand, log := g.log, lowest := g.lowest, threshold := threshold, least := least } calls result

variable (K) in
/-- **C94** in full: every network file that makes sense, and every data file with at least two series. -/
def C94_full : Prop := ∀ (num : Numerals K) (d : NetText) (net data : List Char), d.Sensible num.value num.int → LaidOut d net → 2 ≤ (groupsOf data).length →
  TestsRight num d net data

theorem group_told {num : Numerals K} {d : NetText} {net data : List Char} (h : UsableFiles num d net data) {base : Nat} {f : NetFile K} (hV : f.Valid)
    (hD : d.Describes num.value base f) {x : VarTexts} (hx : TellsNodes d base x) {lines : List (List Char)} (hl : lines ∈ groupsOf data) {t : Nat} {line : List Char}
    (ht : lines[t]? = some line) {n : NodeText} (hn : n ∈ d.nodes) :
    tsSees (fun _ => true) (filled (readGroup x f.vars data lines)) t (base + d.place n.name) = n.told (columnNames data) line := by
  rw [← row_told h.sensible hV hD hx h.columns (line := line) (fun l hl' n hn c hc => by
    rw [List.mem_singleton] at hl'
    subst hl'
    exact h.long lines hl l (List.mem_of_getElem? ht) n hn c hc) hn]
  unfold tsSees dataSees
  rw [group_data, List.getD_eq_getElem?_getD, List.getElem?_map, ht]
  rfl

theorem told_lt (n : NodeText) (columns : List (List Char)) (line : List Char) : n.told columns line < n.states.length := by
  unfold NodeText.told
  split
  · split
    · rename_i hm
      exact_mod_cast List.idxOf_lt_length_of_mem hm
    · omega
  · omega

theorem group_testable {num : Numerals K} {d : NetText} {net data : List Char} (h : UsableFiles num d net data) {base : Nat} {f : NetFile K} (hV : f.Valid)
    (hD : d.Describes num.value base f) {x : VarTexts} (hx : TellsNodes d base x) {lines : List (List Char)} (hl : lines ∈ groupsOf data) :
    Testable f (readGroup x f.vars data lines) where
  counted := group_counted _ _ _ _
  about := (group_series (columns_text h.sensible hV hD hx h.columns) lines).about
  nonempty := group_nonempty hl
  inRange := by
    intro t v hv
    obtain ⟨n, hn, rfl⟩ := node_of h.sensible hD hv
    cases ht : lines[t]? with
    | some line =>
      rw [group_told h hV hD hx hl ht hn, hD.card n hn]
      exact told_lt _ _ _
    | none =>
      unfold tsSees dataSees rowSees
      have hrow : (filled (readGroup x f.vars data lines)).data.getD t [] = [] := by
        rw [group_data, List.getD_eq_getElem?_getD, List.getElem?_map, ht]
        rfl
      rw [hrow]
      simp only [if_true, List.getD_nil]
      omega

theorem filled_told {num : Numerals K} {d : NetText} {net data : List Char} (h : UsableFiles num d net data) {base : Nat} {f : NetFile K} (hV : f.Valid)
    (hD : d.Describes num.value base f) {x : VarTexts} (hx : TellsNodes d base x) :
    d.Tells base (columnNames data) (groupsOf data) (evidenceOf (fun _ => true) (((groupsOf data).map (readGroup x f.vars data)).map filled)) := by
  unfold NetText.Tells evidenceOf
  rw [List.map_map, List.map_map, List.forall₂_map_right_iff, List.forall₂_same]
  intro lines hl
  exact ⟨rfl, fun t line ht n hn => group_told h hV hD hx hl ht hn⟩

/-- what is written about a series -/
theorem tested_rows {fmt : K → List Char} {h : NetFile K} {v : Nat} {e : Nat × (Nat → Nat → Int)} {u : UncertainSeries K} (ht : Tested h v e u) :
    TestedRows fmt h v e (u.data.map (fun row => (row.getD (u.vars.idxOf v) []).map fmt)) := by
  have hi : u.vars.idxOf v = 0 := by rw [ht.vars]; simp
  rw [hi]
  refine ⟨by rw [List.length_map, ht.rows], ?_, ?_⟩
  · intro row hrow
    obtain ⟨r, hr, rfl⟩ := List.mem_map.mp hrow
    have := ht.row r hr
    rw [List.length_map]
    cases r with
    | nil => simp at this
    | cons a l => simp at this; simpa using this.1
  · intro hp
    apply List.ext_getElem
    · simp [ht.rows]
    · intro t h1 h2
      have htd : t < u.data.length := by simpa using h1
      have := ht.value hp t _ (List.getElem?_eq_getElem htd)
      simp [this]

theorem tested_fits {h : NetFile K} {v : Nat} {e : Nat × (Nat → Nat → Int)} {u : UncertainSeries K} (ht : Tested h v e u) : u.Fits v (h.card v) := by
  refine ⟨by rw [ht.rows, ht.length], ?_⟩
  intro row hrow
  rw [ht.vars]
  have := ht.row row hrow
  cases row with
  | nil => simp at this
  | cons r l => exact ⟨r, by simp, by simp at this; exact this.1⟩

/-- with and without an output file -/
theorem benchmark_both {num : Numerals K} {d : NetText} {net data : List Char} (h : UsableFiles num d net data) (h2 : 2 ≤ (groupsOf data).length)
    (g : Logs K) (fmt shown : K → List Char) (rand : Nat → Nat → Nat → Nat → K) (seed : List Char) (hg : g.Law) (hg1 : ∀ b, 0 < b → b ≤ 1 → g.log b ≤ 0)
    (hrand : ∀ n k i j, 0 ≤ rand n k i j) (ptr : Nat) (s : Session K) (hr : s.lex.readLine = true) (hfresh : s.g.Fresh) :
    ∃ f info, f.Valid ∧ d.Describes num.value s.g.nextId f ∧ d.Tells s.g.nextId (columnNames data) (groupsOf data) info ∧
      ∀ (threshold least : K), 0 < threshold → threshold ≤ 1 → least < 0 → ∀ n ∈ d.nodes, ∀ calls, ∃ result,
        (∀ output, benchmarkMain g shown fmt num ptr s rand seed calls net data (some threshold) (some least) n.name output =
          ok (result.map (fun q : Int × Option (List Char) × List Char => (q.1, if output then q.2.1 else none, q.2.2)))) ∧
        Tests fmt shown seed n.states (s.g.nextId + d.place n.name)
            { file := f, data := info, rand := rand, log := g.log, lowest := g.lowest, threshold := threshold, least := least } calls result := by
  obtain ⟨r, i, h1, hV, hT, hD, h3, hx⟩ := opened h ptr hr hfresh
  obtain ⟨hm, hcard⟩ := texts_model h.sensible hV hD hx
  obtain ⟨hready, hi⟩ := ready_first ptr hV hT h3
  refine ⟨r.file, _, hV, hD, filled_told h hV hD hx, ?_⟩
  intro threshold least ht ht1 hleast n hn calls
  obtain ⟨v, hvd⟩ : ∃ v, v = s.g.nextId + d.place n.name := ⟨_, rfl⟩
  have hv : v ∈ r.file.vars := by rw [hvd]; exact of_node hD hn
  have hsearch : r.texts.search r.file.vars n.name = some v := (search_symbol hm _ _).2 ⟨hv, by rw [hvd]; exact (hx n hn).1.symm⟩
  have hnamed : r.texts.Named v n.states := by rw [hvd]; exact ⟨(hx n hn).2.1, (hx n hn).2.2.symm⟩
  rw [← hvd]
  obtain ⟨set, hset⟩ : ∃ set, set = (groupsOf data).map (readGroup r.texts r.file.vars data) := ⟨_, rfl⟩
  have hlen : 2 ≤ set.length := by rw [hset, List.length_map]; exact h2
  rw [← hset] at h1 ⊢
  have hok : ∀ ts ∈ set, Testable r.file ts := by
    intro ts hts
    rw [hset] at hts
    obtain ⟨lines, hl, rfl⟩ := List.mem_map.1 hts
    exact group_testable h hV hD hx hl
  obtain ⟨b, hb⟩ : ∃ b : Trial K, b = { file := r.file, data := evidenceOf (fun _ => true) (set.map filled), rand := rand, log := g.log, lowest := g.lowest, threshold := threshold, least := least } :=
    ⟨_, rfl⟩
  obtain ⟨st, hst⟩ : ∃ st : Benchmark K, st = { loo := List.replicate (set.length - 1) none, marked := fun _ => false, model := r.model, ucs := [], ll := 0
                                                text := "nipbenchmark:\n".toList ++ "  Computing...\n  Random seed = ".toList ++ seed ++ ['\n'] } := ⟨_, rfl⟩
  have hdl : b.data.length = set.length := by rw [hb]; simp [evidenceOf]
  have key := benchmarkLoop_spec (b := b) (by rw [hb]; exact hV) (by rw [hb]; exact hT) (by rw [hb]; exact hi) (set := set) (by rw [hb]; exact hok) (by rw [hb]) (by rw [hb]; exact hg)
    (by rw [hb]; exact hg1) (by rw [hb]; exact hrand) (v := v) (by rw [hb]; exact hv) calls (st := st) (h := r.file) (by rw [hb, hst]; exact hready.loaded hV)
    (by rw [hst]; simp) (by rw [hst]) (by rw [hst])
  have hlp : benchmarkLoop ⟨b.log, b.lowest⟩ i b.file.vars v set b.rand b.threshold b.least calls st = benchmarkLoop g i r.file.vars v set rand threshold least calls st := by
    rw [hb]
  rw [hlp] at key
  have hmain : ∀ output, benchmarkMain g shown fmt num ptr s rand seed calls net data (some threshold) (some least) n.name output = (do
      let o ← benchmarkLoop g i r.file.vars v set rand threshold least calls st
      match o with
      | none => ok none
      | some (true, st) => ok (some (-1, none, st.text))
      | some (false, st) => do
        let (_, file) ← if output then writeUncertain fmt r.texts st.ucs v else ok (EINVAL, none)
        ok (some (0, file, st.text ++ "  Average log. likelihood = ".toList ++ shown (st.ll / (set.length : K)) ++ "\n  ...done.\n".toList))) := by
    intro output
    unfold benchmarkMain
    rw [h1, ok_bind]
    simp only
    rw [if_neg (by omega), if_neg (by push Not; exact ⟨ht, ht1⟩), if_neg (by push Not; exact hleast), hsearch, hst]
    rfl
  rcases key with ⟨k1, k, cs, k2, k3, k4⟩ | ⟨c, st', k1, k2, k3, k4, k5, k6⟩
  · refine ⟨none, fun output => ?_, Or.inl ⟨rfl, k, cs, ?_, k3, ?_⟩⟩
    · rw [hmain, k1]; rfl
    · rw [← hb, hdl]; exact k2
    · rw [← hb]; exact k4
  · have hcv : ∀ k, ((c k).net (b.lesson k)).card v = r.texts.card v := by
      intro k
      rw [hcard v hv]
      rw [hb]
      rfl
    have htest : ∀ u ∈ st'.ucs, ∃ (k : Nat) (e : Nat × (Nat → Nat → Int)), Tested ((c k).net (b.lesson k)) v e u := by
      intro u hu
      obtain ⟨k, hk, rfl⟩ := List.mem_iff_getElem.mp hu
      exact ⟨k, _, k4 k _ _ (List.getElem?_eq_getElem (by omega)) (List.getElem?_eq_getElem hk)⟩
    have hne : st'.ucs ≠ [] := by
      intro h0
      rw [h0] at k3
      simp at k3
      omega
    have hwrite := writeUncertain_eq fmt hnamed (by rw [hcard v hv]; exact hV.states v hv) hne (fun u hu => by
      obtain ⟨k, e, h'⟩ := htest u hu
      rw [h'.vars]; simp) (fun u hu => by
      obtain ⟨k, e, h'⟩ := htest u hu
      have := tested_fits h'
      rwa [hcv k] at this)
    rw [← hb]
    refine ⟨some (0, some (dataText n.states (st'.ucs.map (fun u => u.data.map (fun row => (row.getD (u.vars.idxOf v) []).map fmt)))),
      benchmarkText shown seed b.data.length (meanLog b.log b.lowest (fun k => (c k).net (b.lesson k)) v b.data)), fun output => ?_,
      Or.inr ⟨c, _, fun k hk => k2 k (by omega), by rw [List.length_map, k3, hdl], ?_, rfl⟩⟩
    · have htext : st'.text ++ "  Average log. likelihood = ".toList ++ shown (st'.ll / (set.length : K)) ++ "\n  ...done.\n".toList =
          benchmarkText shown seed b.data.length (meanLog b.log b.lowest (fun k => (c k).net (b.lesson k)) v b.data) := by
        unfold benchmarkText meanLog
        rw [k6, hst, k5, hdl]
        simp
      rw [hmain, k1, ok_bind]
      simp only
      rw [htext]
      cases output with
      | true =>
        rw [if_pos rfl, hwrite]
        rfl
      | false =>
        rfl
    · intro k e rows he hrows
      rw [List.getElem?_map] at hrows
      cases hu : st'.ucs[k]? with
      | none => rw [hu] at hrows; cases hrows
      | some u =>
        rw [hu] at hrows
        cases hrows
        exact tested_rows (k4 k e u he hu)

/-- **C94** (partial): for usable files, with nodes in any order.  What is missing: the files that are not usable; with some labels the network is not read (C68). -/
theorem C94_benchmark_partial {num : Numerals K} {d : NetText} {net data : List Char} (h : UsableFiles num d net data) (h2 : 2 ≤ (groupsOf data).length) :
    TestsRight num d net data := by
  intro g fmt shown rand seed hg hg1 hrand ptr s hr hfresh
  obtain ⟨f, info, e1, e2, e3, e4⟩ := benchmark_both h h2 g fmt shown rand seed hg hg1 hrand ptr s hr hfresh
  refine ⟨f, info, e1, e2, e3, fun threshold least ht ht1 hl n hn calls => ?_⟩
  obtain ⟨result, r1, r2⟩ := e4 threshold least ht ht1 hl n hn calls
  refine ⟨result, ?_, r2⟩
  rw [r1 true]
  cases result <;> rfl

/-- **C94**, without an output file: everything is as with one, also the exit code, but nothing is written. -/
theorem C94_no_output {num : Numerals K} {d : NetText} {net data : List Char} (h : UsableFiles num d net data) (h2 : 2 ≤ (groupsOf data).length)
    (g : Logs K) (fmt shown : K → List Char) (rand : Nat → Nat → Nat → Nat → K) (seed : List Char) (hg : g.Law) (hg1 : ∀ b, 0 < b → b ≤ 1 → g.log b ≤ 0)
    (hrand : ∀ n k i j, 0 ≤ rand n k i j) (ptr : Nat) (s : Session K) (hr : s.lex.readLine = true) (hfresh : s.g.Fresh) {threshold least : K} (ht : 0 < threshold)
    (ht1 : threshold ≤ 1) (hl : least < 0) {n : NodeText} (hn : n ∈ d.nodes) (calls : Nat) :
    (benchmarkMain g shown fmt num ptr s rand seed calls net data (some threshold) (some least) n.name true = ok none ∧
      benchmarkMain g shown fmt num ptr s rand seed calls net data (some threshold) (some least) n.name false = ok none) ∨
    ∃ file text, benchmarkMain g shown fmt num ptr s rand seed calls net data (some threshold) (some least) n.name true = ok (some (0, some file, text)) ∧
      benchmarkMain g shown fmt num ptr s rand seed calls net data (some threshold) (some least) n.name false = ok (some (0, none, text)) := by
  obtain ⟨f, info, e1, e2, e3, e4⟩ := benchmark_both h h2 g fmt shown rand seed hg hg1 hrand ptr s hr hfresh
  obtain ⟨result, r1, r2⟩ := e4 threshold least ht ht1 hl n hn calls
  rcases r2 with ⟨rfl, _⟩ | ⟨c, series, _, _, _, rfl⟩
  · exact Or.inl ⟨r1 true, r1 false⟩
  · exact Or.inr ⟨_, _, r1 true, r1 false⟩

/-- **C94**, the other cases: with fewer than two series, with arguments that cannot be used, or with a name that no node has, `nipbenchmark` writes no file and prints its title only. -/
theorem C94_refuses {num : Numerals K} {d : NetText} {net data : List Char} (h : UsableFiles num d net data) {threshold least : Option K} {name : List Char}
    (hbad : (groupsOf data).length < 2 ∨ (∀ x, threshold = some x → x ≤ 0 ∨ 1 < x) ∨ (∀ x, least = some x → 0 ≤ x) ∨ ∀ n ∈ d.nodes, n.name ≠ name)
    (g : Logs K) (fmt shown : K → List Char) (rand : Nat → Nat → Nat → Nat → K) (seed : List Char) (ptr : Nat) {s : Session K} (hr : s.lex.readLine = true) (hg : s.g.Fresh)
    (calls : Nat) (output : Bool) :
    benchmarkMain g shown fmt num ptr s rand seed calls net data threshold least name output = ok (some (-1, none, "nipbenchmark:\n".toList)) := by
  obtain ⟨r, i, h1, hV, hT, hD, h2, hx⟩ := opened h ptr hr hg
  obtain ⟨hm, hcard⟩ := texts_model h.sensible hV hD hx
  unfold benchmarkMain
  rw [h1, ok_bind]
  simp only [List.length_map]
  by_cases h3 : (groupsOf data).length < 2
  · rw [if_pos h3]
  · rw [if_neg h3]
    cases threshold with
    | none => rfl
    | some x =>
      simp only
      by_cases h4 : x ≤ 0 ∨ 1 < x
      · rw [if_pos h4]
      · rw [if_neg h4]
        cases least with
        | none => rfl
        | some y =>
          simp only
          by_cases h5 : 0 ≤ y
          · rw [if_pos h5]
          · rw [if_neg h5]
            rcases hbad with hb | hb | hb | hb
            · exact absurd hb h3
            · exact absurd (hb x rfl) h4
            · exact absurd (hb y rfl) h5
            · cases hq : r.texts.search r.file.vars name with
              | none => rfl
              | some v =>
                exfalso
                obtain ⟨hv, hs⟩ := (search_symbol hm _ _).1 hq
                obtain ⟨n, hn, rfl⟩ := node_of h.sensible hD hv
                exact hb n hn (by rw [hs]; exact (hx n hn).1.symm)

/-- **C94**, a network file that is not accepted: the same. -/
theorem C94_unread {num : Numerals K} {net : List Char} {ptr : Nat} {s e : Session K} (h : parseModel num ptr s net = ok (none, e)) (g : Logs K) (fmt shown : K → List Char)
    (rand : Nat → Nat → Nat → Nat → K) (seed : List Char) (calls : Nat) (data : List Char) (threshold least : Option K) (name : List Char) (output : Bool) :
    benchmarkMain g shown fmt num ptr s rand seed calls net data threshold least name output = ok (some (-1, none, "nipbenchmark:\n".toList)) := by
  unfold benchmarkMain openFiles openModel
  rw [h]
  rfl

/-! ## the files of C90 -/

example : TestsRight decimalNum certain certainFile bothData := C94_benchmark_partial certain_lesson.toUsableFiles (by decide +kernel)

/-- what is written and printed: each series was learned from the other one -/
theorem certain_run (output : Bool) : benchmarkMain noLogs sixDecimals sixDecimals decimalNum 8 Session.initial (fun _ _ i j => 1 + i + j) "7".toList 1 certainFile bothData
      (some (1 / 2)) (some (-1)) "A".toList output =
    ok (some (0, if output then some "x,y\n0.333333,0.666667\n\n0.666667,0.333333\n\n".toList else none,
      "nipbenchmark:\n  Computing...\n  Random seed = 7\n  1 / 2\n  2 / 2\n  Average log. likelihood = 0.000000\n  ...done.\n".toList)) := by
  cases output <;> decide +kernel

/-- **C94, without an output file, is false**: the exit code is 0, as if a file had been written.  (`write_uncertainseries` refuses the null pointer; its result is not looked at.) -/
theorem C94_no_output_refuted : ¬ ∀ {num : Numerals ℚ} {d : NetText} {net data : List Char}, UsableFiles num d net data → 2 ≤ (groupsOf data).length →
    ∀ (g : Logs ℚ) (fmt shown : ℚ → List Char) (rand : Nat → Nat → Nat → Nat → ℚ) (seed : List Char), g.Law → (∀ n k i j, 0 ≤ rand n k i j) →
      ∀ (ptr : Nat) (s : Session ℚ), s.lex.readLine = true → s.g.Fresh → ∀ (threshold least : ℚ), 0 < threshold → threshold ≤ 1 → least < 0 → ∀ n ∈ d.nodes, ∀ calls,
        ∃ text, benchmarkMain g shown fmt num ptr s rand seed calls net data (some threshold) (some least) n.name false = ok (some (-1, none, text)) := by
  intro h
  obtain ⟨text, ht⟩ := h certain_lesson.toUsableFiles (by decide +kernel) noLogs sixDecimals sixDecimals (fun _ _ i j => 1 + i + j) "7".toList (fun a b _ _ => by simp [noLogs])
    (fun _ _ i j => by positivity) 8 Session.initial rfl Statics.initial_fresh (1 / 2) (-1) (by norm_num) (by norm_num) (by norm_num) (plainText "A") (by decide) 1
  have h' := certain_run false
  have hn : (plainText "A").name = "A".toList := by decide
  rw [hn, h'] at ht
  injection ht with ht
  injection ht with ht
  have := congrArg (fun q : Int × Option (List Char) × List Char => q.1) ht
  exact absurd this (show ¬ (0 : Int) = -1 by decide)

/-- a name that no node has, a threshold above one, one series only -/
example : benchmarkMain noLogs sixDecimals sixDecimals decimalNum 8 Session.initial (fun _ _ _ _ => 1) "7".toList 1 certainFile bothData (some (1 / 2)) (some (-1)) "a".toList true =
    ok (some (-1, none, "nipbenchmark:\n".toList)) :=
  C94_refuses certain_lesson.toUsableFiles (Or.inr (Or.inr (Or.inr (by decide)))) _ _ _ _ _ _ rfl Statics.initial_fresh _ _

example : benchmarkMain noLogs sixDecimals sixDecimals decimalNum 8 Session.initial (fun _ _ _ _ => 1) "7".toList 1 certainFile bothData (some 2) (some (-1)) "A".toList true =
    ok (some (-1, none, "nipbenchmark:\n".toList)) :=
  C94_refuses certain_lesson.toUsableFiles (Or.inr (Or.inl (fun x hx => by cases hx; right; norm_num))) _ _ _ _ _ _ rfl Statics.initial_fresh _ _

/-- a file with a single word is not a network -/
example : ∃ e, parseModel decimalNum 8 (Session.initial : Session ℚ) "net\n".toList = ok (none, e) := by
  have : (match parseModel decimalNum 8 (Session.initial : Session ℚ) "net\n".toList with | ok (none, _) => true | _ => false) = true := by decide +kernel
  revert this
  cases parseModel decimalNum 8 (Session.initial : Session ℚ) "net\n".toList with
  | ub => intro h; cases h
  | ok q =>
    obtain ⟨o, e⟩ := q
    cases o with
    | some r => intro h; cases h
    | none => exact fun _ => ⟨e, rfl⟩

/-! ## labels -/

/-- **C94** is false for every description with a node without label after a node with one: memory that was freed is read. -/
theorem C94_label_refuted {num : Numerals K} {d : NetText} {net : List Char} (hd : d.Sensible num.value num.int) (hf : LaidOut d net) (hl : ¬ LabelsLast d) (g : Logs K)
    (fmt shown : K → List Char) (rand : Nat → Nat → Nat → Nat → K) (seed : List Char) (ptr : Nat) {s : Session K} (hr : s.lex.readLine = true) (hg : s.g.Fresh) (calls : Nat)
    (data : List Char) (threshold least : Option K) (name : List Char) (output : Bool) :
    benchmarkMain g shown fmt num ptr s rand seed calls net data threshold least name output = ub := by
  unfold benchmarkMain openFiles openModel
  rw [C68_label_refuted hd hf hl ptr s hr hg]
  rfl

/-- **C94 in full is false**: see `C94_label_refuted`. -/
theorem C94_refuted : ¬ C94_full ℚ := by
  intro h
  have hlay := laidOut_words labelled (by decide +kernel)
  obtain ⟨f, info, _, _, _, h1⟩ := h decimalNum labelled _ bothData labelled_sensible hlay (by decide +kernel) noLogs sixDecimals sixDecimals (fun _ _ _ _ => 1) []
    (fun a b _ _ => by simp [noLogs]) (fun b _ _ => by simp [noLogs]) (fun _ _ _ _ => zero_le_one) 8 Session.initial rfl Statics.initial_fresh
  obtain ⟨result, h2, _⟩ := h1 1 (-1) one_pos le_rfl (by norm_num) (plainText "B") (by simp [labelled]) 0
  rw [C94_label_refuted labelled_sensible hlay labelled_last _ _ _ _ _ 8 rfl Statics.initial_fresh] at h2
  cases h2

end Nip.Props
