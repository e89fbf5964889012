import Verif.JointTextLemmas
import Verif.Props.Reports

/-!
# C92: `nipjoint` from the texts of the files to the text printed

The specification is about texts only: `Verif/Spec/Report.lean` and the files named in `Verif/Props/Whole.lean`.
-/

namespace Nip.Props

open Nip Res Spec

set_option linter.unusedSectionVars false
set_option synthInstance.maxSize 1000

variable {K : Type} [Field K] [LinearOrder K] [IsStrictOrderedRing K]

/-- The nodes asked for: those named by the arguments, or else those without a column, or else the one of the first column. -/
def asked (d : NetText) (data : List Char) (names : List (List Char)) : List (List Char) :=
  if names ≠ [] then names
  else if unseen d data ≠ [] then (unseen d data).map (fun n => n.name)
  else (columnNames data).take 1

/-- what the first line of the data tells -/
def firstTold (d : NetText) (data : List Char) : Findings K := (((groupsOf data).head?.bind (fun lines => lines.head?)).map (d.lineTells (columnNames data))).getD []

/-- The text: names, a line for each combination of states, and three numbers. -/
def jointReportText (d : NetText) (fmt : K → List Char) (names : List (List Char)) (p : List Nat → K) (first second third : List Char) : List Char :=
  "nipjoint:\n".toList ++ "P(".toList ++ List.intercalate ", ".toList names ++ ") equals: \n".toList ++
    ((firstFastest (names.map d.card)).map (fun is => cellLine is (fmt (p is)))).flatten ++
    "Marginal probability before evidence: m1 = ".toList ++ first ++ "\nMarginal probability after evidence : m2 = ".toList ++ second ++
    "\nLog. likelihood: ln(m2/m1) = ".toList ++ third ++ "\n".toList

/-- What `nipjoint` should print: conditional probabilities given the first line of data, if it is possible; two numbers whose quotient is the probability of that line, and
the logarithm of the quotient, if the network describes a distribution.  The probabilities are those by the reading `R` of the tables. -/
def JointBy (R : Reading K) (num : Numerals K) (d : NetText) (net data : List Char) (names : List (List Char)) : Prop :=
  ∀ (lg : Logs K) (fmt : K → List Char) (g : Shown K) (ptr : Nat) (s : Session K), s.lex.readLine = true → s.g.Fresh →
    ∃ (p : List Nat → K) (first second third : List Char),
      jointMain lg fmt g num ptr s net data names = ok (0, jointReportText d fmt (asked d data names) p first second third) ∧
      (d.total R (firstTold d data) ≠ 0 → ∀ is ∈ firstFastest ((asked d data names).map d.card),
        p is = d.jointShare R (firstTold d data) (asked d data names) is / d.total R (firstTold d data)) ∧
      (d.total R ([] : Findings K) ≠ 0 →
        QuotientWords lg g (d.total R (firstTold d data) / d.total R ([] : Findings K)) [first, second, third])

/-- `JointBy` with the conditional probabilities of the children. -/
def JointRight (num : Numerals K) (d : NetText) (net data : List Char) (names : List (List Char)) : Prop := JointBy (d.prob num.value) num d net data names

/-- Different names of nodes. -/
def NodeNames (d : NetText) (names : List (List Char)) : Prop := names.Nodup ∧ ∀ w ∈ names, ∃ n ∈ d.nodes, n.name = w

variable (K) in
/-- **C92** in full: every description that makes sense, every data file with at least one line of data and all lists of different nodes. -/
def C92_full : Prop := ∀ (num : Numerals K) (d : NetText) (net data : List Char), d.Sensible num.value num.int → LaidOut d net → groupsOf data ≠ [] →
  ∀ names, NodeNames d names → JointRight num d net data names

theorem nipjoint_filled (x : VarTexts) (vars : List Nat) (names : List (List Char)) {set : List TimeSeries} (h : ∀ ts ∈ set, Counted ts) (m : Model K) :
    nipjoint x vars names (set.map filled) m = nipjoint x vars names set m := by
  have hfree : ∀ freed, loop (set.map filled).length (fun n freed => do
      let ts ← rd (set.map filled) n
      freeSeries n ts freed) freed = loop set.length (fun n freed => do
      let ts ← rd set n
      freeSeries n ts freed) freed := by
    intro freed
    rw [List.length_map]
    refine loop_congr fun i hi freed => ?_
    rw [rd_lt hi, rd_lt (show i < (set.map filled).length by simpa using hi), ok_bind, ok_bind, List.getElem_map]
    rfl
  cases set with
  | nil => rfl
  | cons ts set =>
    unfold nipjoint
    simp only [hfree]
    rw [List.map_cons]
    simp only
    simp only [insertStep_filled (h ts (by simp))]
    rfl

theorem groups_nonempty {α : Type} {p : α → Bool} {l : List α} : ∀ g ∈ groups p l, g ≠ [] := by
  intro g hg
  have := (List.mem_filter.1 hg).2
  rintro rfl
  simp at this

/-- usable files with at least one line, as the program finds them -/
theorem joint_opened {num : Numerals K} {d : NetText} {net data : List Char} (h : UsableFiles num d net data) (hne : groupsOf data ≠ []) (ptr : Nat) {s : Session K}
    (hr : s.lex.readLine = true) (hg : s.g.Fresh) :
    ∃ (r : ReadModel K) (i : Interface) (line : List Char) (more : List (List Char)) (rest : List TimeSeries),
      (groupsOf data).head? = some (line :: more) ∧
      r.file.Valid ∧ r.file.Temporal ∧ d.Describes num.value s.g.nextId r.file ∧ TellsNodes d s.g.nextId r.texts ∧ NetFile.parseModel ptr r.file = ok (some (r.model, i)) ∧
      (∀ ts ∈ rest, Counted ts) ∧
      (∀ lg fmt g names, jointMain lg fmt g num ptr s net data names = (do
        let j ← nipjoint r.texts r.file.vars names (filled (readGroup r.texts r.file.vars data (line :: more)) :: rest) r.model
        match j with
        | none => ok (-1, "nipjoint:\n".toList)
        | some j => do
          let text ← jointText lg fmt g r.texts j
          ok (0, "nipjoint:\n".toList ++ text))) := by
  obtain ⟨r, i, h1, hV, hT, hD, h2, hx⟩ := opened h ptr hr hg
  cases hgr : groupsOf data with
  | nil => exact absurd hgr hne
  | cons lines gs =>
    cases lines with
    | nil => exact absurd rfl (groups_nonempty (p := blankLine ',') (l := dataLines true ',' (fileLines data)) [] (by
        show [] ∈ groupsOf data
        rw [hgr]
        simp))
    | cons line more =>
      refine ⟨r, i, line, more, (gs.map (readGroup r.texts r.file.vars data)).map filled, rfl, hV, hT, hD, hx, h2, ?_, ?_⟩
      · intro ts hts
        obtain ⟨ts', h', rfl⟩ := List.mem_map.1 hts
        obtain ⟨l, _, rfl⟩ := List.mem_map.1 h'
        exact group_counted r.texts r.file.vars data l
      · intro lg fmt g names
        unfold jointMain
        rw [h1, ok_bind, hgr]
        simp only
        rw [← nipjoint_filled _ _ _ (by
          intro ts hts
          obtain ⟨l, _, rfl⟩ := List.mem_map.1 hts
          exact group_counted _ _ _ _)]
        rfl

/-- the variables with given names -/
theorem named_vars {num : Numerals K} {d : NetText} {base : Nat} {f : NetFile K} (hD : d.Describes num.value base f) {x : VarTexts} (hx : TellsNodes d base x)
    {names : List (List Char)} (hnames : NodeNames d names) :
    (∀ v ∈ names.map (fun w => base + d.place w), v ∈ f.vars) ∧ (names.map (fun w => base + d.place w)).Nodup ∧
      (names.map (fun w => base + d.place w)).map x.symbol = names := by
  obtain ⟨hnd, hin⟩ := hnames
  refine ⟨?_, ?_, ?_⟩
  · intro v hv
    obtain ⟨w, hw, rfl⟩ := List.mem_map.1 hv
    obtain ⟨n, hn', rfl⟩ := hin w hw
    exact of_node hD hn'
  · refine (List.nodup_map_iff_inj_on hnd).2 fun a ha b hb hab => ?_
    have hab : d.place a = d.place b := Nat.add_left_cancel hab
    rw [← place_name (hin a ha), ← place_name (hin b hb)]
    simp only [hab]
  · rw [List.map_map]
    conv_rhs => rw [← List.map_id names]
    refine List.map_congr_left fun w hw => ?_
    obtain ⟨n, hn', rfl⟩ := hin w hw
    exact (hx n hn').1

/-- the text for a reading of the tables -/
theorem joint_read {num : Numerals K} {d : NetText} {R : Reading K} (hR : AlwaysReads num d R) {net data : List Char} (h : UsableFiles num d net data) (hne : groupsOf data ≠ [])
    (hone : ∀ n ∈ d.nodes, ∀ m ∈ d.nodes, n.name ≠ m.name → d.Neighbours n.name m.name) {names : List (List Char)} (hn : names ≠ []) (hnames : NodeNames d names) :
    JointBy R num d net data names := by
  intro lg fmt g ptr s hr hg
  obtain ⟨r, i, line, more, rest, hhead, hV, hT, hD, hx, h2, _, hmain⟩ := joint_opened h hne ptr hr hg
  obtain ⟨hnd, hin⟩ := hnames
  have hask : asked d data names = names := by unfold asked; rw [if_pos hn]
  have htold : (firstTold d data : Findings K) = d.lineTells (columnNames data) line := by
    unfold firstTold
    rw [hhead]
    rfl
  rw [hask, htold]
  have hcol := columns_text h.sensible hV hD hx h.columns
  let vs := names.map (fun w => s.g.nextId + d.place w)
  obtain ⟨hvmem, hvnd, hsym⟩ : (∀ v ∈ vs, v ∈ r.file.vars) ∧ vs.Nodup ∧ vs.map r.texts.symbol = names := named_vars hD hx ⟨hnd, hin⟩
  have hvcard : vs.map r.file.card = names.map d.card := by
    show (names.map _).map _ = _
    rw [List.map_map]
    refine List.map_congr_left fun w hw => ?_
    obtain ⟨n, hn', rfl⟩ := hin w hw
    exact describes_card hD ⟨n, hn', rfl⟩
  have hvne : vs ≠ [] := by simpa [vs] using hn
  obtain ⟨m, i', e1, e2⟩ := C78_named_partial ptr hV hT ⟨(texts_model h.sensible hV hD hx).1, (texts_model h.sensible hV hD hx).2⟩ hvne hvnd hvmem
    (ts := filled (readGroup r.texts r.file.vars data (line :: more))) (rest := rest) (group_series hcol _) (by
      show 0 < (line :: more).length
      simp)
  rw [h2] at e1
  cases e1
  obtain ⟨mb, _, b1, b2, _⟩ := interface_spec ptr hV hT
  rw [h2] at b1
  cases b1
  obtain ⟨q, q1, q2, q3, q4, q5, q6, q7⟩ := e2 (text_clique ptr h.sensible hV hD hone b2)
  rw [hsym] at q1
  have hwf : q.table.Wf := by
    refine ⟨q6, ?_⟩
    rw [q5]
    intro c hc
    obtain ⟨v, hv, rfl⟩ := List.mem_map.1 hc
    exact hV.states v (hvmem v hv)
  have hlong : d.LongLines (columnNames data) [line] := by
    intro l' hl' n hn c hc
    rw [List.mem_singleton] at hl'
    subst hl'
    exact h.long (l' :: more) (List.mem_of_mem_head? hhead) l' (by simp) n hn c hc
  have hrow : allSeen (filled (readGroup r.texts r.file.vars data (line :: more))) 0 = rowSees (fun _ => true) (columnVars r.texts r.file.vars (columnNames data))
      ((cols r.texts r.file.vars (columnNames data)).map (fieldValue (fun v => (r.texts.names v).getD []) (fields fieldSeparator line))) := by
    funext v
    unfold allSeen dataSees
    rw [group_data, List.map_cons, List.getD_cons_zero]
    rfl
  have hseen : ∀ x, Legal r.file.card r.file.vars x → (r.file.vars.map (fun v => (vision (K := K) r.file.card
      (allSeen (filled (readGroup r.texts r.file.vars data (line :: more))) 0) v).getD (x v) 0)).prod =
        d.support (d.lineTells (columnNames data) line) (r.file.vars.map x) := by
    intro z hz
    rw [hrow]
    exact line_support h.sensible hV hD hx h.states h.columns hlong hz
  have hnothing : ∀ x, Legal r.file.card r.file.vars x → (r.file.vars.map (fun v => (vision (K := K) r.file.card (fun _ => -1) v).getD (x v) 0)).prod =
        d.support ([] : Findings K) (r.file.vars.map x) := by
    intro z hz
    show _ = (1 : K)
    refine List.prod_eq_one fun a ha => ?_
    obtain ⟨v, hv, rfl⟩ := List.mem_map.1 ha
    rw [vision_unseen (by decide), List.getD_eq_getElem?_getD, List.getElem?_replicate, if_pos (hz v hv)]
    rfl
  have hscale := stepScale_ne (K := K) h.sensible true
  have hm2 : ∀ t : Findings K, d.total R t ≠ 0 → q.m2 = stepScale d true * d.total R (d.lineTells (columnNames data) line) := by
    intro t ht
    rw [q4]
    have := record_text h.sensible hV hD (hR _ _ hV hD) (usable_total h.sensible hV hD (hR _ _ hV hD) ht) true _ hseen
    rw [stepTotal_first] at this
    simpa using this
  have hm1 : ∀ t : Findings K, d.total R t ≠ 0 → q.m1 = stepScale d true * d.total R ([] : Findings K) := by
    intro t ht
    rw [q3]
    have := record_text h.sensible hV hD (hR _ _ hV hD) (usable_total h.sensible hV hD (hR _ _ hV hD) ht) true _ hnothing
    rw [stepTotal_first] at this
    simpa using this
  refine ⟨q.table.at', g.number q.m1, g.number q.m2, g.logQuotient lg q.m1 q.m2, ?_, ?_, ?_⟩
  · rw [hmain, q1, ok_bind]
    simp only
    unfold jointText
    rw [q2, printSymbols_eq _ hvne, ok_bind, printPotential_eq _ hwf (by rw [q5]; simpa using hvne), ok_bind, ok_bind, hsym, q5, hvcard]
    unfold jointReportText
    simp only [List.append_assoc]
    rfl
  · intro htot is his
    have hw : r.file.recordWeight True (allSeen (filled (readGroup r.texts r.file.vars data (line :: more))) 0) =
        stepScale d true * d.total R (d.lineTells (columnNames data) line) := by rw [← q4]; exact hm2 _ htot
    have hne0 : r.file.recordWeight True (allSeen (filled (readGroup r.texts r.file.vars data (line :: more))) 0) ≠ 0 := by
      rw [hw]
      exact mul_ne_zero hscale htot
    have hran : InRange (names.map d.card) is := by
      rw [firstFastest_eq] at his
      obtain ⟨k, _, rfl⟩ := List.mem_map.1 his
      refine digits_inRange ?_ k
      rw [← hvcard]
      intro c hc
      obtain ⟨v, hv, rfl⟩ := List.mem_map.1 hc
      exact hV.states v (hvmem v hv)
    have hlen : is.length = names.length := by simpa using hran.length_eq
    let y : Asg := fun u => if u ∈ vs then is.getD (vs.idxOf u) 0 else 0
    have hy : ∀ w ∈ names, y (s.g.nextId + d.place w) = is.getD (names.idxOf w) 0 := by
      intro w hw
      have hmem : s.g.nextId + d.place w ∈ vs := List.mem_map.2 ⟨w, hw, rfl⟩
      have : vs.idxOf (s.g.nextId + d.place w) = names.idxOf w := by
        have hi : names.idxOf w < names.length := List.idxOf_lt_length_iff.2 hw
        have hi' : names.idxOf w < vs.length := by simpa [vs] using hi
        have hg : vs[names.idxOf w] = s.g.nextId + d.place w := by
          simp [vs]
        rw [← hg]
        exact hvnd.idxOf_getElem _ hi'
      simp only [y, if_pos hmem, this]
    have hyis : names.map (fun w => y (s.g.nextId + d.place w)) = is := by
      refine List.ext_getElem (by simp [hlen]) fun j j1 j2 => ?_
      rw [List.getElem_map, hy _ (List.getElem_mem _), hnd.idxOf_getElem, List.getD_eq_getElem?_getD, List.getElem?_eq_getElem j2]
      rfl
    have hylt : ∀ w ∈ names, y (s.g.nextId + d.place w) < r.file.card (s.g.nextId + d.place w) := by
      intro w hw
      obtain ⟨j, hj, rfl⟩ := List.getElem_of_mem hw
      have hj' : j < is.length := by omega
      have hb := List.forall₂_iff_get.1 hran |>.2 j hj' (by simpa using hj)
      obtain ⟨n, hn', he⟩ := hin _ hw
      rw [hy _ hw, hnd.idxOf_getElem, List.getD_eq_getElem?_getD, List.getElem?_eq_getElem hj', ← he, describes_card hD ⟨n, hn', rfl⟩, he]
      simpa using hb
    have hlegal : Legal r.file.card r.file.vars y := by
      intro v hv
      by_cases hm : v ∈ vs
      · obtain ⟨w, hw, rfl⟩ := List.mem_map.1 hm
        exact hylt w hw
      · simp only [y, if_neg hm]
        exact hV.states v hv
    have hval := q7 hne0 y hlegal
    have hvy : vs.map y = is := by
      rw [← hyis]
      show (names.map _).map _ = _
      rw [List.map_map]
      simp only [hyis]
      exact hyis
    rw [hvy, hw] at hval
    rw [hval, show sumOver r.file.card (r.file.vars.filter (· ∉ vs)) (r.file.sliceWeight True (allSeen (filled (readGroup r.texts r.file.vars data (line :: more))) 0)) y =
      _ from joint_text h.sensible hV hD (hR _ _ hV hD) (usable_total h.sensible hV hD (hR _ _ hV hD) htot) _ hseen hnd hin hylt (fun u hu => by simp only [y]; exact if_neg hu), hyis,
      mul_div_mul_left _ _ hscale]
  · intro htot
    have ha := recordWeight_nonneg hV True (fun _ => -1)
    have hb := recordWeight_nonneg hV True (allSeen (filled (readGroup r.texts r.file.vars data (line :: more))) 0)
    rw [← q3] at ha
    rw [← q4] at hb
    have h1 := hm1 _ htot
    have h3 := hm2 _ htot
    have ha0 : q.m1 ≠ 0 := by rw [h1]; exact mul_ne_zero hscale htot
    have hdiv : q.m2 / q.m1 = d.total R (d.lineTells (columnNames data) line) / d.total R ([] : Findings K) := by
      rw [h1, h3, mul_div_mul_left _ _ hscale]
    refine ⟨q.m1, q.m2, ha0, hdiv, ?_⟩
    congr 3
    rw [← hdiv]
    unfold Shown.logQuotient shownLog
    rw [if_neg ha0, if_neg (not_lt.2 (div_nonneg hb ha))]

/-- **C92** (partial): for good files, at least one name, all different, and a network file in which every two nodes are neighbours.  What is missing: the files that are
not good; no names, and other networks, for which the program is wrong (`C92_no_names_refuted`, `C92_cliques_refuted`). -/
theorem C92_joint_partial {num : Numerals K} {d : NetText} {net data : List Char} (h : GoodFiles num d net data) (hne : groupsOf data ≠ [])
    (hone : ∀ n ∈ d.nodes, ∀ m ∈ d.nodes, n.name ≠ m.name → d.Neighbours n.name m.name) {names : List (List Char)} (hn : names ≠ []) (hnames : NodeNames d names) :
    JointRight num d net data names :=
  joint_read (always_prob h.sensible h.order) h.toUsableFiles hne hone hn hnames

/-- **C92** is false for all usable files with at least one line in which every node has another one that is not its neighbour, whatever different nodes are asked for: the
junction tree has several cliques, the joint distribution of them is not found, and the null pointer is used. -/
theorem C92_cliques_refuted {num : Numerals K} {d : NetText} {net data : List Char} (h : UsableFiles num d net data) (hne : groupsOf data ≠ [])
    (hfar : ∀ n ∈ d.nodes, ∃ m ∈ d.nodes, n.name ≠ m.name ∧ ¬ d.Neighbours n.name m.name) {names : List (List Char)} (hn : names ≠ []) (hnames : NodeNames d names)
    (lg : Logs K) (fmt : K → List Char) (g : Shown K) (ptr : Nat) {s : Session K} (hr : s.lex.readLine = true) (hg : s.g.Fresh) :
    jointMain lg fmt g num ptr s net data names = ub := by
  obtain ⟨r, i, line, more, rest, hhead, hV, hT, hD, hx, h2, _, hmain⟩ := joint_opened h hne ptr hr hg
  have hcol := columns_text h.sensible hV hD hx h.columns
  obtain ⟨hvmem, hvnd, hsym⟩ := named_vars hD hx hnames
  obtain ⟨m, i', e1, e2⟩ := C78_two_cliques_refuted ptr hV hT ⟨(texts_model h.sensible hV hD hx).1, (texts_model h.sensible hV hD hx).2⟩ (by simpa using hn) hvnd hvmem
    (ts := filled (readGroup r.texts r.file.vars data (line :: more))) (rest := rest) (group_series hcol _) (by
      show 0 < (line :: more).length
      simp)
  rw [h2] at e1
  cases e1
  obtain ⟨mb, _, b1, b2, _⟩ := interface_spec ptr hV hT
  rw [h2] at b1
  cases b1
  have := e2 (text_cliques ptr h.sensible hV hD hfar b2)
  rw [hsym] at this
  rw [hmain, this]
  rfl

/-- **C92** is false without names, for all usable files with at least one line: the array of variables is freed twice. -/
theorem C92_no_names_refuted {num : Numerals K} {d : NetText} {net data : List Char} (h : UsableFiles num d net data) (hne : groupsOf data ≠ [])
    (lg : Logs K) (fmt : K → List Char) (g : Shown K) (ptr : Nat) {s : Session K} (hr : s.lex.readLine = true) (hg : s.g.Fresh) :
    jointMain lg fmt g num ptr s net data [] = ub := by
  obtain ⟨r, i, line, more, rest, hhead, hV, hT, hD, hx, h2, _, hmain⟩ := joint_opened h hne ptr hr hg
  rw [hmain, C78_no_names_refuted _ _ _ _ _ (by
    show 0 < (r.file.vars.length : Int) - (cols r.texts r.file.vars (columnNames data)).length ∨ 0 < (cols r.texts r.file.vars (columnNames data)).length
    have : 0 < r.file.vars.length := by
      rw [hD.vars, List.length_range']
      exact List.length_pos_iff.2 h.sensible.nonempty
    omega)]
  rfl

/-- **C92**, names that are refused: the exit code is -1 and nothing but the title is printed if there is a name that is no node. -/
theorem C92_unknown {num : Numerals K} {d : NetText} {net data : List Char} (h : UsableFiles num d net data) (hne : groupsOf data ≠ []) {names : List (List Char)}
    {w : List Char} (hw : w ∈ names) (hno : ∀ n ∈ d.nodes, n.name ≠ w)
    (lg : Logs K) (fmt : K → List Char) (g : Shown K) (ptr : Nat) {s : Session K} (hr : s.lex.readLine = true) (hg : s.g.Fresh) :
    jointMain lg fmt g num ptr s net data names = ok (-1, "nipjoint:\n".toList) := by
  obtain ⟨r, i, line, more, rest, hhead, hV, hT, hD, hx, h2, _, hmain⟩ := joint_opened h hne ptr hr hg
  have hcol := columns_text h.sensible hV hD hx h.columns
  obtain ⟨mb, _, b1, _, b3, _⟩ := interface_spec ptr hV hT
  rw [h2] at b1
  cases b1
  obtain ⟨m', w', e1, _⟩ := nipjoint_front hV hT r.texts names rest (group_series hcol (line :: more)).about (by
      show 0 < (line :: more).length
      simp) b3
  have hnone : names.mapM (fun name => r.texts.search r.file.vars name) = none := by
    have hs : r.texts.search r.file.vars w = none := by
      cases hq : r.texts.search r.file.vars w with
      | none => rfl
      | some v =>
        obtain ⟨n, hn, he, _⟩ := (search_node h.sensible hV hD hx w v).1 hq
        exact absurd he (hno n hn)
    clear e1 hmain
    induction names with
    | nil => cases hw
    | cons a names ih =>
      rw [List.mapM_cons]
      rcases List.mem_cons.1 hw with rfl | hw
      · rw [hs]; rfl
      · rw [ih hw]
        cases r.texts.search r.file.vars a <;> rfl
  rw [hmain, e1]
  unfold jointVars
  rw [if_pos (List.length_pos_of_mem hw), hnone]
  rfl

/-- **C92**, files that are refused: the same if the network file is not accepted. -/
theorem C92_unread {num : Numerals K} {net : List Char} {ptr : Nat} {s e : Session K} (h : parseModel num ptr s net = ok (none, e)) (lg : Logs K) (fmt : K → List Char)
    (g : Shown K) (data : List Char) (names : List (List Char)) : jointMain lg fmt g num ptr s net data names = ok (-1, "nipjoint:\n".toList) := by
  unfold jointMain openFiles openModel
  rw [h]
  rfl

/-- **C92**, files that are refused: the same if there are no lines of data. -/
theorem C92_no_lines {num : Numerals K} {d : NetText} {net data : List Char} (h : UsableFiles num d net data) (he : groupsOf data = [])
    (lg : Logs K) (fmt : K → List Char) (g : Shown K) (ptr : Nat) {s : Session K} (hr : s.lex.readLine = true) (hg : s.g.Fresh) (names : List (List Char)) :
    jointMain lg fmt g num ptr s net data names = ok (-1, "nipjoint:\n".toList) := by
  obtain ⟨r, i, h1, hV, hT, _, h2, _⟩ := opened h ptr hr hg
  obtain ⟨mb, _, b1, _, b3, _⟩ := interface_spec ptr hV hT
  rw [h2] at b1
  cases b1
  obtain ⟨m1, e1, _⟩ := Model.usePriors_spec b3 false
  unfold jointMain nipjoint
  rw [h1, he, ok_bind]
  simp only [List.map_nil]
  rw [e1]
  rfl

/-! ## witnesses -/

/-- every node occurs in one potential: `C` depends on `B` and `A` -/
def meeting : NetText :=
  { frame := .net []
    nodes := [plainText "C", plainText "B", plainText "A"]
    pots := [{ child := "C".toList, parents := some ["B".toList, "A".toList],
               data := some (.group (.group (.num "0.7".toList (.num "0.3".toList .nil)) (.group (.num "0.2".toList (.num "0.8".toList .nil)) .nil))
                 (.group (.group (.num "0.6".toList (.num "0.4".toList .nil)) (.group (.num "0.1".toList (.num "0.9".toList .nil)) .nil)) .nil)) },
      { child := "B".toList, parents := none, data := some (.num "0.5".toList (.num "0.5".toList .nil)) },
      { child := "A".toList, parents := none, data := some (.num "0.4".toList (.num "0.6".toList .nil)) }] }

/-- four nodes in a row -/
def row4 : NetText :=
  { frame := .net []
    nodes := [plainText "D", plainText "C", plainText "B", plainText "A"]
    pots := [{ child := "D".toList, parents := some ["C".toList],
               data := some (.group (.num "0.7".toList (.num "0.3".toList .nil)) (.group (.num "0.2".toList (.num "0.8".toList .nil)) .nil)) },
      { child := "C".toList, parents := some ["B".toList],
               data := some (.group (.num "0.6".toList (.num "0.4".toList .nil)) (.group (.num "0.1".toList (.num "0.9".toList .nil)) .nil)) },
      { child := "B".toList, parents := some ["A".toList],
               data := some (.group (.num "0.9".toList (.num "0.1".toList .nil)) (.group (.num "0.1".toList (.num "0.9".toList .nil)) .nil)) },
      { child := "A".toList, parents := none, data := some (.num "0.4".toList (.num "0.6".toList .nil)) }] }

theorem meeting_sensible : meeting.Sensible decimalNum.value decimalNum.int := by
  have hval : ∀ w, (0 : ℚ) ≤ decimalNum.value w := fun w => by unfold decimalNum; positivity
  refine ⟨by decide, by decide, ?_, ?_, ?_, ?_, by decide⟩
  · intro n hn
    simp only [meeting, List.mem_cons, List.not_mem_nil, or_false] at hn
    rcases hn with rfl | rfl | rfl <;> exact ⟨by decide, by decide, fun p hp => by cases hp; decide +kernel⟩
  · intro x y h
    cases h
  · intro n hn w hw
    simp only [meeting, List.mem_cons, List.not_mem_nil, or_false] at hn
    rcases hn with rfl | rfl | rfl <;> cases hw
  · intro p hp
    simp only [meeting, List.mem_cons, List.not_mem_nil, or_false] at hp
    rcases hp with rfl | rfl | rfl <;> exact ⟨by decide, by decide, by decide, fun g hg => by cases hg; exact ⟨by decide, fun w _ => hval w⟩⟩

theorem row4_sensible : row4.Sensible decimalNum.value decimalNum.int := by
  have hval : ∀ w, (0 : ℚ) ≤ decimalNum.value w := fun w => by unfold decimalNum; positivity
  refine ⟨by decide, by decide, ?_, ?_, ?_, ?_, by decide⟩
  · intro n hn
    simp only [row4, List.mem_cons, List.not_mem_nil, or_false] at hn
    rcases hn with rfl | rfl | rfl | rfl <;> exact ⟨by decide, by decide, fun p hp => by cases hp; decide +kernel⟩
  · intro x y h
    cases h
  · intro n hn w hw
    simp only [row4, List.mem_cons, List.not_mem_nil, or_false] at hn
    rcases hn with rfl | rfl | rfl | rfl <;> cases hw
  · intro p hp
    simp only [row4, List.mem_cons, List.not_mem_nil, or_false] at hp
    rcases hp with rfl | rfl | rfl | rfl <;> exact ⟨by decide, by decide, by decide, fun g hg => by cases hg; exact ⟨by decide, fun w _ => hval w⟩⟩

/-- one column -/
def seenC : List Char := "C\ny\nx\n".toList

/-- good files: no successors, one column -/
theorem seenC_good {d : NetText} (hs : d.Sensible decimalNum.value decimalNum.int) (hlex : LaidOut d (fileText (wordLines d.lexemes))) (hshort : ShortTexts d) (hlabels : LabelsLast d)
    (hpots : d.pots ≠ []) (horder : ∀ p ∈ d.pots, ∀ w ∈ p.parents.getD [], d.place p.child < d.place w) (hnext : ∀ n ∈ d.nodes, n.next = none)
    (hstates : ∀ n ∈ d.nodes, n.states.Nodup) : GoodFiles decimalNum d (fileText (wordLines d.lexemes)) seenC where
  sensible := hs
  laidOut := hlex
  short := hshort
  labels := hlabels
  pots := hpots
  order := horder
  temporal := by
    constructor
    · intro n hn w hw
      rw [hnext n hn] at hw
      cases hw
    · intro n hn m hm w hw
      rw [hnext n hn] at hw
      cases hw
  states := hstates
  columns := by
    have h : columnNames seenC = ["C".toList] := by decide +kernel
    rw [h]
    intro n hn c c' h1 h2
    have hc : c < 1 := by by_contra hge; rw [List.getElem?_eq_none (by simp only [List.length_cons, List.length_nil]; omega)] at h1; cases h1
    have hc' : c' < 1 := by by_contra hge; rw [List.getElem?_eq_none (by simp only [List.length_cons, List.length_nil]; omega)] at h2; cases h2
    omega
  long := by
    have h : columnNames seenC = ["C".toList] := by decide +kernel
    have hg : groupsOf seenC = [["y\n".toList, "x\n".toList]] := by decide +kernel
    rw [h, hg]
    intro lines hl line hline n hn c hc
    have hc' : c < 1 := by by_contra hge; rw [List.getElem?_eq_none (by simp only [List.length_cons, List.length_nil]; omega)] at hc; cases hc
    have : (fields ',' line).length = 1 := by
      simp only [List.mem_cons, List.not_mem_nil, or_false] at hl
      subst hl
      simp only [List.mem_cons, List.not_mem_nil, or_false] at hline
      rcases hline with rfl | rfl <;> decide +kernel
    omega

theorem meeting_good : GoodFiles decimalNum meeting (fileText (wordLines meeting.lexemes)) seenC := by
  refine seenC_good meeting_sensible (laidOut_words meeting (by decide +kernel)) ⟨by decide, ?_, by decide⟩ (by unfold LabelsLast; decide) (by decide) (by decide) (by decide) (by decide)
  intro n hn w hw
  simp only [meeting, List.mem_cons, List.not_mem_nil, or_false] at hn
  rcases hn with rfl | rfl | rfl <;> cases hw

theorem row4_good : GoodFiles decimalNum row4 (fileText (wordLines row4.lexemes)) seenC := by
  refine seenC_good row4_sensible (laidOut_words row4 (by decide +kernel)) ⟨by decide, ?_, by decide⟩ (by unfold LabelsLast; decide) (by decide) (by decide) (by decide) (by decide)
  intro n hn w hw
  simp only [row4, List.mem_cons, List.not_mem_nil, or_false] at hn
  rcases hn with rfl | rfl | rfl | rfl <;> cases hw

/-- whole percents -/
def percent (q : ℚ) : List Char := (Nat.toDigits 10 (q * 100).floor.toNat)

/-- The hypotheses of the partial theorem are met; the table is the distribution of `B` and `A` given that `C` is `y`. -/
example : JointRight decimalNum meeting (fileText (wordLines meeting.lexemes)) seenC ["B".toList, "A".toList] ∧
    meeting.total (meeting.prob decimalNum.value) (firstTold meeting seenC : Findings ℚ) ≠ 0 ∧
    jointMain exponents percent letters decimalNum 8 Session.initial (fileText (wordLines meeting.lexemes)) seenC ["B".toList, "A".toList] =
      ok (0, "nipjoint:\nP(B, A) equals: \nP(0, 0) = 9\nP(1, 0) = 12\nP(0, 1) = 36\nP(1, 1) = 41\nMarginal probability before evidence: m1 = q\nMarginal probability after evidence : m2 = q\nLog. likelihood: ln(m2/m1) = q\n".toList) := by
  refine ⟨C92_joint_partial meeting_good (by decide +kernel) ?_ (by decide) ⟨by decide, by decide⟩, by decide +kernel, by decide +kernel⟩
  intro n hn m hm _
  refine Or.inl ⟨_, List.mem_cons_self, ?_⟩
  revert n m
  decide

/-- The hypotheses of the refutation for several cliques are met. -/
example : jointMain exponents percent letters decimalNum 8 Session.initial (fileText (wordLines row4.lexemes)) seenC ["B".toList, "A".toList] = ub := by
  refine C92_cliques_refuted row4_good.toUsableFiles (by decide +kernel) ?_ (by decide) ⟨by decide, by decide⟩ _ _ _ _ rfl Statics.initial_fresh
  have hfar : ∀ a b, (¬ ∃ p ∈ row4.pots, a ∈ p.child :: p.parents.getD [] ∧ b ∈ p.child :: p.parents.getD []) → ¬ row4.Neighbours a b := by
    have hno : ∀ u, row4.nextOf u = none := by
      intro u
      unfold NetText.nextOf
      cases hq : row4.nodes.find? (fun n => n.name == u) with
      | none => rfl
      | some n =>
        have := List.mem_of_find?_eq_some hq
        simp only [row4, List.mem_cons, List.not_mem_nil, or_false] at this
        rcases this with rfl | rfl | rfl | rfl <;> rfl
    rintro a b h (h' | ⟨⟨_, h'⟩, _⟩ | ⟨⟨u, _, h'⟩, _⟩)
    · exact h h'
    · exact h' (hno a)
    · rw [hno u] at h'
      cases h'
  have hn : ∀ n ∈ row4.nodes, ∃ m ∈ row4.nodes, n.name ≠ m.name ∧ ¬ ∃ p ∈ row4.pots, n.name ∈ p.child :: p.parents.getD [] ∧ m.name ∈ p.child :: p.parents.getD [] := by
    decide
  intro n h
  obtain ⟨m, h1, h2, h3⟩ := hn n h
  exact ⟨m, h1, h2, hfar _ _ h3⟩

/-- **C92** is false: nothing is printed for the files of the first example and no names. -/
theorem C92_refuted : ¬ C92_full ℚ := by
  intro h
  obtain ⟨_, _, _, _, h1, _⟩ := h decimalNum meeting _ seenC meeting_sensible meeting_good.laidOut (by decide +kernel) [] ⟨by decide, by decide⟩
    exponents percent letters 8 Session.initial rfl Statics.initial_fresh
  rw [C92_no_names_refuted meeting_good.toUsableFiles (by decide +kernel) _ _ _ _ rfl Statics.initial_fresh] at h1
  cases h1

end Nip.Props
