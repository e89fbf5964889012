import Verif.Props.Convert
import Verif.ReportsLemmas

/-!
# C91, C93: `niplikelihood` and `nipconvert` from the texts of the files to the text written

The specification is about texts only: `Verif/Spec/Report.lean` and the files named in `Verif/Props/Whole.lean`.
-/

namespace Nip.Props

open Nip Res Spec

set_option linter.unusedSectionVars false
set_option synthInstance.maxSize 1000

variable {K : Type} [Field K] [LinearOrder K] [IsStrictOrderedRing K]

/-! ## C91 -/

/-- the logarithm of a probability as `printf` shows it -/
def shownLog (lg : Logs K) (g : Shown K) (q : K) : List Char := if q = 0 then g.minusInf else g.number (lg.log q)

/-- The words of a line: two numbers, whose quotient should be `q`, and the logarithm of `q`. -/
def QuotientWords (lg : Logs K) (g : Shown K) (q : K) (words : List (List Char)) : Prop :=
  ∃ a b, a ≠ 0 ∧ b / a = q ∧ words = [g.number a, g.number b, shownLog lg g q]

/-- The words that should be printed about a line of data: about the conditional probability of all it tells given what it tells about the nodes with other names;
nothing is said if the latter is impossible.  The probabilities are those by the reading `R` of the tables. -/
def LikelihoodWords (R : Reading K) (d : NetText) (data : List Char) (lg : Logs K) (g : Shown K) (names : List (List Char)) (line : List Char) (words : List (List Char)) : Prop :=
  words.length = 3 ∧ (d.total R (aboutOthers names (d.lineTells (columnNames data) line)) ≠ 0 →
    QuotientWords lg g (d.conditional R names (d.lineTells (columnNames data) line)) words)

/-- The text: a line of words for each line of data, and an empty line after each series. -/
def reportText (rows : List (List (List (List Char)))) : List Char :=
  "niplikelihood:\n".toList ++ (rows.map (fun r => (r.map spacedLine).flatten ++ ['\n'])).flatten

/-- What `niplikelihood` should print, if all is well in the lines whose numbers in their series are selected by `which`, and the tables are read as `R`. -/
def LikelihoodBy (R : Reading K) (num : Numerals K) (d : NetText) (net data : List Char) (which : Nat → Prop) : Prop :=
  ∀ (lg : Logs K) (g : Shown K) (ptr : Nat) (s : Session K), lg.Law → s.lex.readLine = true → s.g.Fresh → ∀ names : List (List Char), names ≠ [] →
    ∃ rows, likelihoodMain lg g num ptr s net data names = ok (0, reportText rows) ∧
      List.Forall₂ (fun lines row => row.length = lines.length ∧ ∀ (t : Nat) line words, which t → lines[t]? = some line → row[t]? = some words →
        LikelihoodWords R d data lg g names line words) (groupsOf data) rows

/-- `LikelihoodBy` with the conditional probabilities of the children. -/
def LikelihoodRight (num : Numerals K) (d : NetText) (net data : List Char) (which : Nat → Prop) : Prop := LikelihoodBy (d.prob num.value) num d net data which

variable (K) in
/-- **C91** in full: every description that makes sense and every data file with at least one line of data. -/
def C91_full : Prop := ∀ (num : Numerals K) (d : NetText) (net data : List Char), d.Sensible num.value num.int → LaidOut d net → groupsOf data ≠ [] →
  LikelihoodRight num d net data (fun _ => True)

theorem shown_quotient {lg : Logs K} (hl : lg.Law) (g : Shown K) {a b : K} (ha : 0 < a) (hb : 0 ≤ b) : g.logDifference lg a b = shownLog lg g (b / a) := by
  unfold Shown.logDifference shownLog
  rw [if_neg (by push Not; exact ⟨ha.le, hb⟩), if_neg ha.ne']
  by_cases h : b = 0
  · rw [if_pos h, if_pos (by rw [h, zero_div])]
  · rw [if_neg h, if_neg (div_ne_zero h ha.ne'), hl b a (lt_of_le_of_ne hb (Ne.symm h)) ha]

/-- What is printed about every line, for a reading of the tables: after the first line of a series the potentials without parents of nodes with a successor do not count. -/
theorem likelihood_lines {num : Numerals K} {d : NetText} {R : Reading K} (hR : AlwaysReads num d R) {net data : List Char} (h : UsableFiles num d net data) (hne : groupsOf data ≠ [])
    (lg : Logs K) (g : Shown K) (ptr : Nat) {s : Session K} (hlaw : lg.Law) (hr : s.lex.readLine = true) (hg : s.g.Fresh) (names : List (List Char)) :
    ∃ rows, likelihoodMain lg g num ptr s net data names = ok (0, reportText rows) ∧
      List.Forall₂ (fun lines row => row.length = lines.length ∧ ∀ (t : Nat) line words, lines[t]? = some line → row[t]? = some words →
        words.length = 3 ∧
        ((∃ told : Findings K, d.total R told ≠ 0) → d.stepTotal R (decide (t = 0)) (aboutOthers names (d.lineTells (columnNames data) line)) ≠ 0 →
          QuotientWords lg g (d.stepTotal R (decide (t = 0)) (d.lineTells (columnNames data) line) /
            d.stepTotal R (decide (t = 0)) (aboutOthers names (d.lineTells (columnNames data) line))) words)) (groupsOf data) rows := by
  classical
  obtain ⟨r, i, h1, hV, hT, hD, h2, hx⟩ := opened h ptr hr hg
  obtain ⟨hm, hcard⟩ := texts_model h.sensible hV hD hx
  have hcol := columns_text h.sensible hV hD hx h.columns
  obtain ⟨m', i', l, e1, e2, e3⟩ := C77_numbers_partial ptr hV hT ⟨hm, hcard⟩ names (set := ((groupsOf data).map (readGroup r.texts r.file.vars data)).map filled)
    (by simpa using hne) (by
      intro ts hts
      rw [List.map_map] at hts
      obtain ⟨lines, _, rfl⟩ := List.mem_map.1 hts
      exact group_series hcol lines)
  rw [h2] at e1
  cases e1
  rw [niplikelihood_filled _ _ _ (by
    intro ts hts
    obtain ⟨lines, _, rfl⟩ := List.mem_map.1 hts
    exact group_counted _ _ _ _)] at e2
  refine ⟨l.map (fun r => r.map (fun q => [g.number q.1, g.number q.2, g.logDifference lg q.1 q.2])), ?_, ?_⟩
  · unfold likelihoodMain
    rw [h1, ok_bind]
    simp only
    rw [e2, ok_bind]
    simp only
    rw [likelihoodText_eq]
    unfold reportText
    simp only [List.map_map, Function.comp_def]
  · rw [List.map_map, List.forall₂_map_left_iff, List.forall₂_iff_get] at e3
    rw [List.forall₂_map_right_iff, List.forall₂_iff_get]
    refine ⟨e3.1, fun k hk hk' => ?_⟩
    obtain ⟨f1, f2⟩ := e3.2 k hk hk'
    have hl : (groupsOf data).get ⟨k, hk⟩ ∈ groupsOf data := List.get_mem _ _
    generalize (groupsOf data).get ⟨k, hk⟩ = lines at *
    generalize l.get ⟨k, hk'⟩ = row at *
    refine ⟨by rw [List.length_map, f1]; rfl, fun t line words ht hw => ?_⟩
    rw [List.getElem?_map] at hw
    obtain ⟨⟨a, b⟩, hq, rfl⟩ := Option.map_eq_some_iff.1 hw
    refine ⟨rfl, fun ⟨told, htold⟩ hpos => ?_⟩
    obtain ⟨g1, g2⟩ := f2 t _ hq
    simp only [Function.comp_apply] at g1 g2
    have hu := usable_total h.sensible hV hD (hR _ _ hV hD) htold
    have hlong : d.LongLines (columnNames data) [line] := by
      intro l' hl' n hn c hc
      rw [List.mem_singleton] at hl'
      subst hl'
      exact h.long lines hl l' (List.mem_of_getElem? ht) n hn c hc
    have hrow : allSeen (filled (readGroup r.texts r.file.vars data lines)) t = rowSees (fun _ => true) (columnVars r.texts r.file.vars (columnNames data))
        ((cols r.texts r.file.vars (columnNames data)).map (fieldValue (fun v => (r.texts.names v).getD []) (fields fieldSeparator line))) := by
      funext v
      unfold allSeen dataSees
      rw [group_data, List.getD_eq_getElem?_getD, List.getElem?_map, ht]
      rfl
    have hall := record_text h.sensible hV hD (hR _ _ hV hD) hu (decide (t = 0)) (allSeen (filled (readGroup r.texts r.file.vars data lines)) t)
      (t := d.lineTells (columnNames data) line) (fun z hz => by
        rw [hrow]
        exact line_support h.sensible hV hD hx h.states h.columns hlong hz)
    have hoth := record_text h.sensible hV hD (hR _ _ hV hD) hu (decide (t = 0)) (seenOthers r.texts names (filled (readGroup r.texts r.file.vars data lines)) t)
      (t := aboutOthers names (d.lineTells (columnNames data) line)) (fun z hz => by
        have := others_support h.sensible hV hD hx h.states h.columns hlong names hz
        rw [← hrow] at this
        rw [← this]
        rfl)
    simp only [decide_eq_true_eq] at hall hoth
    have ha := recordWeight_nonneg hV (t = 0) (seenOthers r.texts names (filled (readGroup r.texts r.file.vars data lines)) t)
    have hb := recordWeight_nonneg hV (t = 0) (allSeen (filled (readGroup r.texts r.file.vars data lines)) t)
    rw [← g1] at ha
    rw [← g2] at hb
    rw [← g1] at hoth
    rw [← g2] at hall
    have hscale := stepScale_ne (K := K) h.sensible (decide (t = 0))
    have ha0 : a ≠ 0 := by rw [hoth]; exact mul_ne_zero hscale hpos
    have hba : b / a = d.stepTotal R (decide (t = 0)) (d.lineTells (columnNames data) line) /
        d.stepTotal R (decide (t = 0)) (aboutOthers names (d.lineTells (columnNames data) line)) := by
      rw [hall, hoth, mul_div_mul_left _ _ hscale]
    exact ⟨a, b, ha0, hba, by rw [shown_quotient hlaw g (lt_of_le_of_ne ha (Ne.symm ha0)) hb, hba]⟩

/-- The first lines, and all lines if no node has a successor, for a reading of the tables. -/
theorem likelihood_read {num : Numerals K} {d : NetText} {R : Reading K} (hR : AlwaysReads num d R) {net data : List Char} (h : UsableFiles num d net data) (hne : groupsOf data ≠ []) :
    LikelihoodBy R num d net data (fun t => t = 0 ∨ ∀ n ∈ d.nodes, n.next = none) := by
  intro lg g ptr s hlaw hr hg names _
  obtain ⟨rows, e1, e2⟩ := likelihood_lines hR h hne lg g ptr hlaw hr hg names
  refine ⟨rows, e1, e2.imp fun lines row h3 => ⟨h3.1, fun t line words hw ht hrow => ?_⟩⟩
  obtain ⟨f1, f2⟩ := h3.2 t line words ht hrow
  have htot : ∀ told : Findings K, d.stepTotal R (decide (t = 0)) told = d.total R told := by
    intro told
    rcases hw with rfl | hw
    · rfl
    · exact stepTotal_unlinked hw _ _ _
  refine ⟨f1, fun hpos => ?_⟩
  have := f2 ⟨_, hpos⟩ (by rw [htot]; exact hpos)
  rw [htot, htot] at this
  exact this

/-- What is printed about every line of good files: after the first line of a series the potentials without parents of nodes with a successor do not count. -/
theorem C91_lines_partial {num : Numerals K} {d : NetText} {net data : List Char} (h : GoodFiles num d net data) (hne : groupsOf data ≠ [])
    (lg : Logs K) (g : Shown K) (ptr : Nat) {s : Session K} (hlaw : lg.Law) (hr : s.lex.readLine = true) (hg : s.g.Fresh) (names : List (List Char)) :
    ∃ rows, likelihoodMain lg g num ptr s net data names = ok (0, reportText rows) ∧
      List.Forall₂ (fun lines row => row.length = lines.length ∧ ∀ (t : Nat) line words, lines[t]? = some line → row[t]? = some words →
        words.length = 3 ∧
        ((∃ told : Findings K, d.total (d.prob num.value) told ≠ 0) → d.stepTotal (d.prob num.value) (decide (t = 0)) (aboutOthers names (d.lineTells (columnNames data) line)) ≠ 0 →
          QuotientWords lg g (d.stepTotal (d.prob num.value) (decide (t = 0)) (d.lineTells (columnNames data) line) /
            d.stepTotal (d.prob num.value) (decide (t = 0)) (aboutOthers names (d.lineTells (columnNames data) line))) words)) (groupsOf data) rows :=
  likelihood_lines (always_prob h.sensible h.order) h.toUsableFiles hne lg g ptr hlaw hr hg names

/-- **C91** (partial): for good files, in the first line of each series, and in all lines if no node has a successor.  What is missing: the files that are not good,
and the later lines if a node has a successor; the program is wrong there. -/
theorem C91_likelihood_partial {num : Numerals K} {d : NetText} {net data : List Char} (h : GoodFiles num d net data) (hne : groupsOf data ≠ []) :
    LikelihoodRight num d net data (fun t => t = 0 ∨ ∀ n ∈ d.nodes, n.next = none) :=
  likelihood_read (always_prob h.sensible h.order) h.toUsableFiles hne

/-- **C91**, files that are refused: nothing but the title is printed and the exit code is -1 if the network file is not accepted. -/
theorem C91_unread {num : Numerals K} {net : List Char} {ptr : Nat} {s e : Session K} (h : parseModel num ptr s net = ok (none, e)) (lg : Logs K) (g : Shown K)
    (data : List Char) (names : List (List Char)) : likelihoodMain lg g num ptr s net data names = ok (-1, "niplikelihood:\n".toList) := by
  unfold likelihoodMain openFiles openModel
  rw [h]
  rfl

/-- **C91**, files that are refused: the same if there are no lines of data. -/
theorem C91_no_lines {num : Numerals K} {d : NetText} {net data : List Char} (h : UsableFiles num d net data) (he : groupsOf data = [])
    (lg : Logs K) (g : Shown K) (ptr : Nat) {s : Session K} (hr : s.lex.readLine = true) (hg : s.g.Fresh) (names : List (List Char)) :
    likelihoodMain lg g num ptr s net data names = ok (-1, "niplikelihood:\n".toList) := by
  obtain ⟨r, i, h1, _⟩ := opened h ptr hr hg
  unfold likelihoodMain
  rw [h1, he, ok_bind]
  rfl

/-- Another function that obeys the law of logarithms: the exponent of the prime 3. -/
def exponents3 : Logs ℚ where
  log := fun q => (padicValRat 3 q : ℚ)
  lowest := -1000

theorem exponents3_law : exponents3.Law := by
  intro a b ha hb
  show (padicValRat 3 a : ℚ) - (padicValRat 3 b : ℚ) = ((padicValRat 3 (a / b) : ℤ) : ℚ)
  have : Fact (Nat.Prime 3) := ⟨Nat.prime_three⟩
  rw [padicValRat.div ha.ne' hb.ne']
  push_cast; rfl

/-- numbers of one letter -/
def letters : Shown ℚ := { number := fun q => if q = 3 then ['p'] else ['q'], minusInf := ['m'], plusInf := ['i'], nan := ['n'] }

/-- The files of the example of C82 are good; there are two series, and what the first line of the first one says is possible. -/
example : LikelihoodRight decimalNum rain (fileText (wordLines rain.lexemes)) rainData (fun t => t = 0 ∨ ∀ n ∈ rain.nodes, n.next = none) ∧
    rain.conditional (rain.prob decimalNum.value) ["B".toList] (rain.lineTells (columnNames rainData) "1, x\n".toList) = 1 / 2 ∧
    likelihoodMain exponents letters decimalNum 8 Session.initial (fileText (wordLines rain.lexemes)) rainData ["B".toList] =
      ok (0, "niplikelihood:\nq q q\nq q q\n\nq q q\n\n".toList) :=
  ⟨C91_likelihood_partial rain_good (by decide +kernel), by decide +kernel, by decide +kernel⟩

/-- two equal lines -/
def sameTwice : List Char := "B\ny\ny\n".toList

/-- **C91** is false: different numbers are printed for two equal lines of a series, 1/2 and 27/50, since a potential without parents counts in the first one only. -/
theorem C91_refuted : ¬ C91_full ℚ := by
  intro h
  obtain ⟨rows, e1, e2⟩ := h decimalNum rain (fileText (wordLines rain.lexemes)) sameTwice rain_sensible (laidOut_words rain (by decide +kernel)) (by decide +kernel)
    exponents3 letters 8 Session.initial exponents3_law rfl Statics.initial_fresh ["B".toList] (by simp)
  have hrun : likelihoodMain exponents3 letters decimalNum 8 Session.initial (fileText (wordLines rain.lexemes)) sameTwice ["B".toList] =
      ok (0, "niplikelihood:\nq q q\nq q p\n\n".toList) := by decide +kernel
  rw [hrun] at e1
  have hg : groupsOf sameTwice = [["y\n".toList, "y\n".toList]] := by decide +kernel
  rw [hg] at e2
  cases e2 with
  | cons h3 h4 =>
    cases h4
    rename_i row
    obtain ⟨h5, h6⟩ := h3
    match row, h5 with
    | [w1, w2], _ =>
      obtain ⟨_, g1⟩ := h6 0 _ w1 trivial rfl rfl
      obtain ⟨_, g2⟩ := h6 1 _ w2 trivial rfl rfl
      obtain ⟨a1, b1, _, _, rfl⟩ := g1 (by decide +kernel)
      obtain ⟨a2, b2, _, _, rfl⟩ := g2 (by decide +kernel)
      have hone : ∀ q, ∃ c, letters.number q = [c] := fun q => by
        unfold letters
        simp only
        split
        · exact ⟨_, rfl⟩
        · exact ⟨_, rfl⟩
      have hlog : ∃ c, shownLog exponents3 letters (rain.conditional (rain.prob decimalNum.value) ["B".toList] (rain.lineTells (columnNames sameTwice) "y\n".toList)) = [c] := by
        unfold shownLog
        split
        · exact ⟨_, rfl⟩
        · exact hone _
      obtain ⟨c, hc⟩ := hlog
      obtain ⟨x1, hx1⟩ := hone a1
      obtain ⟨y1, hy1⟩ := hone b1
      obtain ⟨x2, hx2⟩ := hone a2
      obtain ⟨y2, hy2⟩ := hone b2
      rw [hx1, hy1, hx2, hy2, hc] at e1
      have : (['n', 'i', 'p', 'l', 'i', 'k', 'e', 'l', 'i', 'h', 'o', 'o', 'd', ':', '\n', 'q', ' ', 'q', ' ', 'q', '\n', 'q', ' ', 'q', ' ', 'p', '\n', '\n'] : List Char) =
          ['n', 'i', 'p', 'l', 'i', 'k', 'e', 'l', 'i', 'h', 'o', 'o', 'd', ':', '\n', x1, ' ', y1, ' ', c, '\n', x2, ' ', y2, ' ', c, '\n', '\n'] :=
        (Prod.mk.inj (Res.ok.inj e1)).2
      simp only [List.cons.injEq, and_true, true_and] at this
      obtain ⟨_, _, k1, _, _, k2⟩ := this
      rw [← k1] at k2
      exact absurd k2 (by decide)

/-! ## C93 -/

/-- The first column that belongs to a node. -/
def FirstColumn (d : NetText) (data : List Char) (c : Nat) (n : NodeText) : Prop :=
  n ∈ d.nodes ∧ (columnNames data)[c]? = some n.name ∧ ∀ c' < c, ∀ m ∈ d.nodes, (columnNames data)[c']? ≠ some m.name

/-- The digits that should be written for a line: 1 for the state named in column `c`, 0 for the others. -/
def stateDigits (n : NodeText) (c : Nat) (line : List Char) : List (List Char) :=
  n.states.map (fun w => if (fields ',' line)[c]? = some w then ['1'] else ['0'])

/-- What `nipconvert` should write: the digits for each line, or nothing if there are no lines, no column of a node, or other formats. -/
def ConvertsRight (num : Numerals K) (d : NetText) (net data : List Char) : Prop :=
  ∀ (ptr : Nat) (s : Session K), s.lex.readLine = true → s.g.Fresh → ∀ inFormat outFormat : List Char,
    (inFormat.map Char.toLower = "univariate".toList → outFormat.map Char.toLower = "unary".toList → groupsOf data ≠ [] → ∀ c n, FirstColumn d data c n →
      convertMain num ptr s net inFormat data outFormat = ok (0, some (dataText n.states ((groupsOf data).map (fun lines => lines.map (stateDigits n c)))))) ∧
    (inFormat.map Char.toLower ≠ "univariate".toList ∨ outFormat.map Char.toLower ≠ "unary".toList ∨ groupsOf data = [] ∨ (∀ c n, ¬ FirstColumn d data c n) →
      convertMain num ptr s net inFormat data outFormat = ok (-1, none))

variable (K) in
/-- **C93** in full: every description that makes sense and every data file. -/
def C93_full : Prop := ∀ (num : Numerals K) (d : NetText) (net data : List Char), d.Sensible num.value num.int → LaidOut d net → ConvertsRight num d net data

theorem cols_first {x : VarTexts} {vars : List Nat} {v : Nat} : ∀ {header : List (List Char)} {c : Nat} {name : List Char} (k : Nat), header[c]? = some name →
    x.search vars name = some v → (∀ c' < c, ∀ w, header[c']? = some w → x.search vars w = none) →
    ((header.zipIdx k).filterMap (fun q => (x.search vars q.1).map (fun v => (v, q.2))))[0]? = some (v, k + c) := by
  intro header
  induction header with
  | nil => intro c name k h; cases h
  | cons a header ih =>
    intro c name k h hs hb
    rw [List.zipIdx_cons, List.filterMap_cons]
    cases c with
    | zero =>
      rw [List.getElem?_cons_zero, Option.some.injEq] at h
      subst h
      simp only [hs, Option.map_some]
      rfl
    | succ c =>
      have h0 := hb 0 (by omega) a rfl
      simp only [h0, Option.map_none]
      rw [ih (k + 1) (by simpa using h) hs (fun c' hc' w hw => hb (c' + 1) (by omega) w (by simpa using hw))]
      congr 2
      omega

theorem opened_apart {num : Numerals K} {ptr : Nat} {s : Session K} {net data : List Char} {r : ReadModel K} {i : Interface} {set : List TimeSeries}
    (h : openFiles num ptr s net data = ok (some (r, i, set))) : openModel num ptr s net = ok (some (r, i)) ∧ readTimeseries r.texts r.file.vars data = ok (some set) := by
  unfold openFiles at h
  obtain ⟨o, h1, h2⟩ := bind_ok h
  cases o with
  | none => cases h2
  | some o =>
    obtain ⟨r', i'⟩ := o
    simp only at h2
    obtain ⟨t, h3, h4⟩ := bind_ok h2
    cases t with
    | none => cases h4
    | some t =>
      cases h4
      exact ⟨h1, h3⟩

theorem search_node {num : Numerals K} {d : NetText} {base : Nat} {f : NetFile K} (hd : d.Sensible num.value num.int) (hV : f.Valid) (hD : d.Describes num.value base f)
    {x : VarTexts} (hx : TellsNodes d base x) (w : List Char) (v : Nat) : x.search f.vars w = some v ↔ ∃ n ∈ d.nodes, n.name = w ∧ v = base + d.place n.name := by
  rw [search_symbol (texts_model hd hV hD hx).1]
  constructor
  · rintro ⟨hv, rfl⟩
    obtain ⟨n, hn, rfl⟩ := node_of hd hD hv
    exact ⟨n, hn, (hx n hn).1.symm, rfl⟩
  · rintro ⟨n, hn, rfl, rfl⟩
    exact ⟨of_node hD hn, (hx n hn).1.symm⟩

theorem no_columns_unary (x : VarTexts) {set : List TimeSeries} (h : ∀ ts ∈ set, ts.observed = []) : writeUnary x set = ok (EINVAL, none) := by
  have hU : observedUnion set = observedUnion (set.map (fun _ => { numVars := 0, numHidden := 0, hidden := [], numObserved := 0, observed := [], length := 0, data := [] })) := by
    unfold observedUnion
    cases set with
    | nil => rfl
    | cons ts l =>
      simp only [List.map_cons, h ts (by simp), List.take_nil]
      congr 1
      funext first
      have hl : ∀ ts ∈ l, ts.observed = [] := fun ts ht => h ts (by simp [ht])
      clear h
      induction l generalizing first with
      | nil => rfl
      | cons a l ih =>
        rw [List.map_cons, List.foldlM_cons, List.foldlM_cons]
        simp only [hl a (by simp), List.take_nil]
        congr 1
        funext first
        exact ih first (fun ts ht => hl ts (by simp [ht]))
  by_cases h0 : set = []
  · unfold writeUnary
    rw [if_pos h0]
  · have := C79_refused x (set := set.map (fun _ => { numVars := 0, numHidden := 0, hidden := [], numObserved := 0, observed := [], length := 0, data := [] })) (by
      intro ts hts
      obtain ⟨_, _, rfl⟩ := List.mem_map.1 hts
      exact ⟨⟨rfl, rfl, rfl, by simp⟩, rfl⟩)
    unfold writeUnary at this ⊢
    rw [if_neg (by simpa using h0), ← hU] at this
    rw [if_neg h0]
    cases ho : observedUnion set with
    | ub => rw [ho] at this; cases this
    | ok q =>
      obtain ⟨o, n⟩ := q
      rw [ho, ok_bind] at this
      rw [ok_bind]
      simp only at this ⊢
      by_cases hn : n < 1
      · rw [if_pos hn]
      · rw [if_neg hn] at this
        obtain ⟨v, _, this⟩ := bind_ok this
        obtain ⟨t, _, this⟩ := bind_ok this
        obtain ⟨t, _, this⟩ := bind_ok this
        cases this

/-- **C93** (partial): for usable files; the nodes may be declared in any order.  What is missing: the files that are not usable. -/
theorem C93_convert_partial {num : Numerals K} {d : NetText} {net data : List Char} (h : UsableFiles num d net data) : ConvertsRight num d net data := by
  intro ptr s hr hg inF outF
  obtain ⟨r, i, h1, hV, hT, hD, h2, hx⟩ := opened h ptr hr hg
  obtain ⟨o1, o2⟩ := opened_apart h1
  have hcol := columns_text h.sensible hV hD hx h.columns
  have hsearch := search_node h.sensible hV hD hx
  have hin : sameLetters inF "univariate".toList = decide (inF.map Char.toLower = "univariate".toList) := by
    unfold sameLetters
    rw [show "univariate".toList.map Char.toLower = "univariate".toList by decide]
    by_cases he : inF.map Char.toLower = "univariate".toList
    · rw [he]; simp
    · rw [decide_eq_false he]; simpa using he
  have hout : sameLetters outF "unary".toList = decide (outF.map Char.toLower = "unary".toList) := by
    unfold sameLetters
    rw [show "unary".toList.map Char.toLower = "unary".toList by decide]
    by_cases he : outF.map Char.toLower = "unary".toList
    · rw [he]; simp
    · rw [decide_eq_false he]; simpa using he
  unfold convertMain
  rw [o1, ok_bind, hin, hout]
  simp only
  constructor
  · intro hi ho hne c n hc
    obtain ⟨hn, hc1, hc2⟩ := hc
    rw [if_neg (by rw [decide_eq_true hi]; decide), if_neg (by rw [decide_eq_true ho]; decide), o2, ok_bind]
    simp only
    rw [if_neg (by rw [List.length_map]; have := List.length_pos_iff.mpr hne; omega)]
    have hfirst : (cols r.texts r.file.vars (columnNames data))[0]? = some (s.g.nextId + d.place n.name, c) := by
      have := cols_first (x := r.texts) (vars := r.file.vars) (header := columnNames data) 0 hc1 ((hsearch _ _).2 ⟨n, hn, rfl, rfl⟩) (by
        intro c' hc' w hw
        cases hq : r.texts.search r.file.vars w with
        | none => rfl
        | some v =>
          obtain ⟨m, hm, rfl, _⟩ := (hsearch w v).1 hq
          exact absurd hw (hc2 c' hc' m hm))
      rwa [Nat.zero_add] at this
    have hpos : (cols r.texts r.file.vars (columnNames data)).length ≠ 0 := by
      intro h0
      rw [List.eq_nil_of_length_eq_zero h0] at hfirst
      cases hfirst
    have hsame : ∀ lines, filled (readGroup r.texts r.file.vars data lines) = readGroup r.texts r.file.vars data lines := by
      intro lines
      unfold filled readGroup readTs
      simp only
      rw [if_neg hpos, if_neg hpos]
    rw [writeUnary_eq (v := s.g.nextId + d.place n.name) (names := n.states) ⟨(hx n hn).2.1, (hx n hn).2.2.symm⟩ (by simpa using hne) (by
      intro ts hts
      obtain ⟨lines, _, rfl⟩ := List.mem_map.1 hts
      have hs := group_series hcol lines
      rw [hsame] at hs
      refine ⟨hs.wf, hs.nodup, ?_⟩
      show (columnVars r.texts r.file.vars (columnNames data))[0]? = _
      unfold columnVars
      rw [List.getElem?_map, hfirst]
      rfl), ok_bind]
    simp only
    rw [if_neg (by simp)]
    congr 3
    rw [List.map_map]
    refine congrArg _ (List.map_congr_left fun lines hl => ?_)
    simp only [Function.comp_apply]
    rw [← hsame, group_data, List.map_map]
    refine List.map_congr_left fun line hline => ?_
    simp only [Function.comp_apply]
    rw [List.getD_eq_getElem?_getD, List.getElem?_map, hfirst]
    simp only [Option.map_some, Option.getD_some]
    have hlen : c < (fields ',' line).length := h.long lines hl line hline n hn c hc1
    unfold fieldValue namesOf stateDigits unaryWords
    simp only
    rw [show (fields fieldSeparator line)[c]? = some (fields ',' line)[c] from List.getElem?_eq_getElem hlen, (hx n hn).2.1, (hx n hn).2.2, List.getElem?_eq_getElem hlen]
    simp only [Option.getD_some, Option.some.injEq]
    generalize (fields ',' line)[c] = w
    refine List.ext_getElem (by simp) fun j j1 j2 => ?_
    have hj : j < n.states.length := by simpa using j1
    rw [List.getElem_map, List.getElem_map, List.getElem_range]
    refine if_congr ?_ rfl rfl
    have hnd := h.states n hn
    by_cases hw : w ∈ n.states
    · rw [if_pos hw, Nat.cast_inj]
      constructor
      · intro e
        subst e
        exact (List.getElem_idxOf hj).symm
      · intro e
        rw [e, hnd.idxOf_getElem]
    · rw [if_neg hw]
      constructor
      · intro e; omega
      · intro e; exact absurd (e ▸ List.getElem_mem hj) hw
  · intro hbad
    by_cases hi : inF.map Char.toLower = "univariate".toList
    · by_cases ho : outF.map Char.toLower = "unary".toList
      · rw [if_neg (by rw [decide_eq_true hi]; decide), if_neg (by rw [decide_eq_true ho]; decide), o2, ok_bind]
        simp only
        by_cases hne : groupsOf data = []
        · rw [hne, List.map_nil, if_pos (by simp)]
        · rw [if_neg (by rw [List.length_map]; have := List.length_pos_iff.mpr hne; omega)]
          rcases hbad with hbad | hbad | hbad | hbad
          · exact absurd hi hbad
          · exact absurd ho hbad
          · exact absurd hbad hne
          · have hnone : columnVars r.texts r.file.vars (columnNames data) = [] := by
              rw [List.eq_nil_iff_forall_not_mem]
              intro v hv
              obtain ⟨w, hw, hv⟩ := (mem_columnVars _ _ _ _).1 hv
              obtain ⟨n, hn, rfl, _⟩ := (hsearch w v).1 hv
              have hex : ∃ c : Nat, ∃ m ∈ d.nodes, (columnNames data)[c]? = some m.name := by
                obtain ⟨c, hc⟩ := List.getElem?_of_mem hw
                exact ⟨c, n, hn, hc⟩
              classical
              obtain ⟨m, hm, hc⟩ := Nat.find_spec hex
              exact hbad _ m ⟨hm, hc, fun c' hc' m' hm' he => Nat.find_min hex hc' ⟨m', hm', he⟩⟩
            rw [no_columns_unary _ (by
              intro ts hts
              obtain ⟨lines, _, rfl⟩ := List.mem_map.1 hts
              exact hnone), ok_bind]
            rfl
      · rw [if_neg (by rw [decide_eq_true hi]; decide), if_pos (decide_eq_false ho)]
    · rw [if_pos (decide_eq_false hi)]

/-- **C93**, files that are refused: nothing is written and the exit code is -1 if the network file is not accepted. -/
theorem C93_unread {num : Numerals K} {net : List Char} {ptr : Nat} {s e : Session K} (h : parseModel num ptr s net = ok (none, e)) (inFormat data outFormat : List Char) :
    convertMain num ptr s net inFormat data outFormat = ok (-1, none) := by
  unfold convertMain openModel
  rw [h]
  rfl

/-- The files of the example of C82: the first column belongs to no node, the second to node `B`. -/
example : ConvertsRight decimalNum rain (fileText (wordLines rain.lexemes)) rainData ∧ (∃ n, FirstColumn rain rainData 1 n ∧ n.states = ["x".toList, "y".toList]) ∧
    convertMain decimalNum 8 Session.initial (fileText (wordLines rain.lexemes)) "Univariate".toList rainData "UNARY".toList =
      ok (0, some "x,y\n1,0\n0,1\n\n0,0\n\n".toList) := by
  refine ⟨C93_convert_partial rain_good.toUsableFiles, ⟨plainText "B", ⟨by simp [rain], by decide +kernel, ?_⟩, rfl⟩, by decide +kernel⟩
  intro c hc m hm
  obtain rfl : c = 0 := by omega
  have h : columnNames rainData = ["Z".toList, "B".toList] := by decide +kernel
  rw [h]
  simp only [rain, List.mem_cons, List.not_mem_nil, or_false] at hm
  rcases hm with rfl | rfl | rfl <;> decide

/-- **C93** is false for every description with a node without label after a node with one (C68). -/
theorem C93_label_refuted {num : Numerals K} {d : NetText} {net : List Char} (hd : d.Sensible num.value num.int) (hf : LaidOut d net) (hl : ¬ LabelsLast d) (ptr : Nat)
    {s : Session K} (hr : s.lex.readLine = true) (hg : s.g.Fresh) (inFormat data outFormat : List Char) : convertMain num ptr s net inFormat data outFormat = ub := by
  unfold convertMain openModel
  rw [C68_label_refuted hd hf hl ptr s hr hg]
  rfl

/-- **C93** is false: `C93_label_refuted` for two nodes, the first of which has a label. -/
theorem C93_refuted : ¬ C93_full ℚ := by
  intro h
  have hlay := laidOut_words (demoText (some "a") none) (by decide +kernel)
  have h1 := (h demoNum (demoText (some "a") none) _ [] (demo_sensible _ _) hlay 0 Session.initial rfl Statics.initial_fresh [] []).2 (Or.inl (by decide))
  rw [C93_label_refuted (demo_sensible (some "a") none) hlay (by
    unfold LabelsLast demoText
    simp [NodeText.label, nodeOf, NodeField.labelOf, List.findSome?]) 0 rfl Statics.initial_fresh] at h1
  cases h1

end Nip.Props
