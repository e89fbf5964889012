import Verif.Props.Programs
import Verif.Props.Question
import Verif.StoryLemmas
import Verif.Whole

/-!
# C82, C83, C84: `nipinference`, `nipmap` and `nipnext` from the texts of the files to the text written

The specification is about texts only: `Verif/Spec/HuginNet.lean` (what a network file says), `Verif/Spec/DataFile.lean` (lines, fields and groups
of lines of a data file), `Verif/Spec/Story.lean` (probabilities) and `Verif/Spec/Lines.lean` (what is written).
-/

namespace Nip.Props

open Nip Res Spec

set_option linter.unusedSectionVars false
set_option synthInstance.maxSize 1000

variable {K : Type} [Field K] [LinearOrder K] [IsStrictOrderedRing K]

/-- the names of the columns of a data file -/
def columnNames (data : List Char) : List (List Char) := headerFields ',' (fileLines data)

/-- the time series of a data file: groups of lines -/
def groupsOf (data : List Char) : List (List (List Char)) := series true ',' (fileLines data)

/-- what the lines of a time series tell -/
def tellings (d : NetText) (data : List Char) (lines : List (List Char)) : List (Findings K) := lines.map (d.lineTells (columnNames data))

/-- The lines of a group are possible, if the numbers of the network file are read as `R`. -/
def Tellable (R : Reading K) (d : NetText) (data : List Char) (lines : List (List Char)) : Prop := d.storyTotal R (tellings d data lines) ≠ 0

/-- Files that can be used: the network file is a layout of a description that makes sense, with potentials, short texts, no label after which there is none, sensible links
between time steps, and states with different names.  In the data file no node has two columns and no line is too short. -/
structure UsableFiles (num : Numerals K) (d : NetText) (net data : List Char) : Prop where
  sensible : d.Sensible num.value num.int
  laidOut : LaidOut d net
  short : ShortTexts d
  labels : LabelsLast d
  pots : d.pots ≠ []
  temporal : d.Temporal
  states : ∀ n ∈ d.nodes, n.states.Nodup
  columns : d.OneColumn (columnNames data)
  long : ∀ lines ∈ groupsOf data, d.LongLines (columnNames data) lines

/-- Files with which the programs do what they should: they can be used, and children are declared before their parents. -/
structure GoodFiles (num : Numerals K) (d : NetText) (net data : List Char) : Prop extends UsableFiles num d net data where
  order : ∀ p ∈ d.pots, ∀ w ∈ p.parents.getD [], d.place p.child < d.place w

/-! ## series without columns -/

/-- An empty array of data is filled with empty rows. -/
def filled (ts : TimeSeries) : TimeSeries := { ts with data := if ts.numObserved = 0 then List.replicate ts.length [] else ts.data }

/-- The number of observed variables is the right one. -/
def Counted (ts : TimeSeries) : Prop := (ts.numVars : Int) - ts.numHidden = ts.numObserved

theorem insertStep_filled {ts : TimeSeries} (h : Counted ts) (marked : Nat → Bool) (t : Int) (m : Model K) :
    insertStep marked (filled ts) t m = insertStep marked ts t m := by
  unfold Counted at h
  by_cases h0 : ts.numObserved = 0
  · unfold insertStep filled
    simp only
    rw [h, h0]
    rfl
  · unfold filled
    rw [if_neg h0]

theorem smoothForward_filled {ts : TimeSeries} (h : Counted ts) (lg : Option (Logs K)) (s : Interface) (marked : Nat → Bool) :
    smoothForward lg s marked (filled ts) = smoothForward lg s marked ts := by
  funext t st
  unfold smoothForward absorb
  simp only [insertStep_filled h]
  rfl

theorem smoothBackward_filled {ts : TimeSeries} (h : Counted ts) (s : Interface) (marked : Nat → Bool) (vars : List Nat) :
    smoothBackward (K := K) s marked (filled ts) vars = smoothBackward s marked ts vars := by
  funext t st
  unfold smoothBackward smoothAbsorb
  simp only [insertStep_filled h]
  rfl

theorem forwardBackward_filled {ts : TimeSeries} (h : Counted ts) (lg : Option (Logs K)) (s : Interface) (marked : Nat → Bool) (vars : List Nat) (m : Model K) :
    forwardBackward lg s marked (filled ts) vars m = forwardBackward lg s marked ts vars m := by
  unfold forwardBackward
  rw [smoothForward_filled h, smoothBackward_filled h]
  rfl

theorem forwardInference_filled {ts : TimeSeries} (h : Counted ts) (lg : Option (Logs K)) (s : Interface) (marked : Nat → Bool) (vars : List Nat) (m : Model K) :
    forwardInference lg s marked (filled ts) vars m = forwardInference lg s marked ts vars m := by
  have : forwardStep lg s marked (filled ts) vars = forwardStep lg s marked ts vars := by
    funext t st
    unfold forwardStep absorb
    simp only [insertStep_filled h]
  unfold forwardInference
  rw [this]
  rfl

theorem inferAll_filled (lg : Option (Logs K)) (s : Interface) (v : Nat) {set : List TimeSeries} (h : ∀ ts ∈ set, Counted ts) (m : Model K) :
    inferAll lg s v (set.map filled) m = inferAll lg s v set m := by
  unfold inferAll
  generalize (([], m) : List (UncertainSeries K) × Model K) = st
  induction set generalizing st with
  | nil => rfl
  | cons ts set ih =>
    rw [List.map_cons, List.foldlM_cons, List.foldlM_cons, forwardBackward_filled (h ts (by simp))]
    congr 1
    funext st
    exact ih (fun ts h' => h ts (by simp [h'])) st

theorem mapAll_filled (x : VarTexts) (s : Interface) {set : List TimeSeries} (h : ∀ ts ∈ set, Counted ts) (st : List Char × Model K) :
    mapAll x s (set.map filled) st = mapAll x s set st := by
  unfold mapAll
  induction set generalizing st with
  | nil => rfl
  | cons ts set ih =>
    rw [List.map_cons, List.foldlM_cons, List.foldlM_cons]
    simp only [forwardBackward_filled (h ts (by simp))]
    congr 1
    funext st
    exact ih (fun ts h' => h ts (by simp [h'])) st

theorem nextAll_filled (lg : Logs K) (fmt : K → List Char) (x : VarTexts) (s : Interface) (v : Nat) {set : List TimeSeries} (h : ∀ ts ∈ set, Counted ts) (st : List Char × Model K) :
    nextAll lg fmt x s v (set.map filled) st = nextAll lg fmt x s v set st := by
  unfold nextAll
  induction set generalizing st with
  | nil => rfl
  | cons ts set ih =>
    rw [List.map_cons, List.foldlM_cons, List.foldlM_cons]
    simp only [forwardInference_filled (h ts (by simp))]
    congr 1
    funext st
    exact ih (fun ts h' => h ts (by simp [h'])) st

theorem nipinference_filled (lg : Logs K) (fmt : K → List Char) (x : VarTexts) (s : Interface) (vars : List Nat) (name : List Char) {set : List TimeSeries}
    (h : ∀ ts ∈ set, Counted ts) (m : Model K) : nipinference lg fmt x s vars name (set.map filled) m = nipinference lg fmt x s vars name set m := by
  unfold nipinference
  simp only [inferAll_filled _ _ _ h, List.length_map]

theorem nipmap_filled (x : VarTexts) (s : Interface) {set : List TimeSeries} (h : ∀ ts ∈ set, Counted ts) (m : Model K) :
    nipmap x s (set.map filled) m = nipmap x s set m := by
  cases set with
  | nil => rfl
  | cons ts set =>
    unfold nipmap
    have := fun st : List Char × Model K => mapAll_filled x s h st
    simp only [List.map_cons] at this ⊢
    simp only [this]
    rfl

theorem nipnext_filled (lg : Logs K) (fmt : K → List Char) (x : VarTexts) (s : Interface) (vars : List Nat) (name : List Char) {set : List TimeSeries}
    (h : ∀ ts ∈ set, Counted ts) (m : Model K) : nipnext lg fmt x s vars name (set.map filled) m = nipnext lg fmt x s vars name set m := by
  unfold nipnext
  simp only [nextAll_filled _ _ _ _ _ h, List.length_map]

/-! ## what is read -/

theorem texts_tell {num : Numerals K} {d : NetText} {base : Nat} {r : ReadModel K} (hD : d.Describes num.value base r.file)
    (hid : r.nodes.map (fun v => v.id) = r.file.vars) (ht : List.Forall₂ (SameTexts num) d.nodes r.nodes) (hd : d.Sensible num.value num.int) : TellsNodes d base r.texts := by
  intro n hn
  obtain ⟨v, v1, v2, v3⟩ := find_recs d.nodes r.nodes base ht (by rw [hid, hD.vars]) ⟨n, hn, rfl⟩
  have hmem : v ∈ r.nodes := List.mem_of_find?_eq_some v1
  have hsym : v.symbol = n.name := by
    have := List.find?_some v1
    rw [beq_iff_eq] at this
    exact this.symm
  have hnd : (r.nodes.map (fun v => v.id)).Nodup := by rw [hid, hD.vars]; exact List.nodup_range'
  have hnode : r.node (base + d.place n.name) = v := by
    unfold ReadModel.node
    have : r.nodes.find? (fun m => m.id == base + d.place n.name) = some v := by
      cases h : r.nodes.find? (fun m => m.id == base + d.place n.name) with
      | none => exact absurd (List.find?_eq_none.1 h v hmem) (by rw [v2]; simp [NetText.place])
      | some m =>
        have h1 := List.mem_of_find?_eq_some h
        have h2 : m.id = base + d.place n.name := by simpa using List.find?_some h
        rw [List.inj_on_of_nodup_map hnd h1 hmem (by rw [h2, v2]; rfl)]
    rw [this]
    rfl
  have hst : v.states = n.states := by rw [v3]; exact statesOf_node hd hn
  unfold ReadModel.texts
  simp only
  rw [hnode]
  exact ⟨hsym, by rw [hst], by rw [hst]⟩

theorem temporal_text {num : Numerals K} {d : NetText} {base : Nat} {f : NetFile K} (hd : d.Sensible num.value num.int) (hD : d.Describes num.value base f) (ht : d.Temporal) : f.Temporal := by
  have hnext : ∀ n ∈ d.nodes, ∀ u ∈ f.next (base + d.place n.name), ∃ w, n.next = some w ∧ u = base + d.place w := by
    intro n hn u hu
    rw [hD.next n hn] at hu
    obtain ⟨w, hw, rfl⟩ := Option.map_eq_some_iff.1 hu
    exact ⟨w, hw, rfl⟩
  constructor
  · intro v hv u hu
    obtain ⟨n, hn, rfl⟩ := node_of hd hD hv
    obtain ⟨w, hw, rfl⟩ := hnext n hn u hu
    obtain ⟨p, hp, hpar⟩ := ht.used n hn w hw
    have h := hD.pots
    rw [List.forall₂_iff_get] at h
    obtain ⟨i, hi, rfl⟩ := List.mem_iff_getElem.1 hp
    have hj : i < f.pots.length := by rw [← h.1]; exact hi
    refine ⟨f.pots[i], List.getElem_mem hj, ?_⟩
    have hst := h.2 i hi hj
    simp only [List.get_eq_getElem] at hst
    rw [hst.parents, List.mem_reverse]
    cases hq : d.pots[i].parents with
    | none => rw [hq] at hpar; cases hpar
    | some l =>
      rw [hq] at hpar
      exact List.mem_map.2 ⟨n.name, hpar, rfl⟩
  · intro v hv u hu
    obtain ⟨n, hn, rfl⟩ := node_of hd hD hv
    obtain ⟨w, hw, rfl⟩ := hnext n hn u hu
    obtain ⟨h1, h2⟩ := hd.next n hn w hw
    refine ⟨?_, ?_⟩
    · obtain ⟨m, hm, rfl⟩ := h1
      exact of_node hD hm
    · rw [describes_card hD h1, h2, hD.card n hn]
  · intro v hv v' hv' u h1 h2
    obtain ⟨n, hn, rfl⟩ := node_of hd hD hv
    obtain ⟨m, hm, rfl⟩ := node_of hd hD hv'
    obtain ⟨w, hw, e⟩ := hnext n hn u h1
    obtain ⟨w', hw', e'⟩ := hnext m hm u h2
    have : w = w' := describes_inj (base := base) (hd.next n hn w hw).1 (hd.next m hm w' hw').1 (by rw [← e, ← e'])
    subst this
    rw [ht.distinct n hn m hm w hw hw']

/-- the names of the states of the variables -/
def namesOf (x : VarTexts) (v : Nat) : List (List Char) := (x.names v).getD []

/-- what is read of a group of lines -/
def readGroup (x : VarTexts) (vars : List Nat) (data : List Char) (lines : List (List Char)) : TimeSeries := readTs x vars (namesOf x) (columnNames data) lines

theorem opened {num : Numerals K} {d : NetText} {net data : List Char} (h : UsableFiles num d net data) (ptr : Nat) {s : Session K} (hr : s.lex.readLine = true) (hg : s.g.Fresh) :
    ∃ r i, openFiles num ptr s net data = ok (some (r, i, (groupsOf data).map (readGroup r.texts r.file.vars data))) ∧ r.file.Valid ∧ r.file.Temporal ∧
      d.Describes num.value s.g.nextId r.file ∧ NetFile.parseModel ptr r.file = ok (some (r.model, i)) ∧ TellsNodes d s.g.nextId r.texts := by
  obtain ⟨r, e, h1, hV, hD, hb, hid, htx, _⟩ := C68_reads_partial h.sensible h.laidOut h.short h.pots h.labels ptr s hr hg
  have hT := temporal_text h.sensible hD h.temporal
  obtain ⟨m, i, h2, h3, _⟩ := interface_spec ptr hV hT
  rw [hb] at h3
  cases h3
  have hx := texts_tell hD hid htx h.sensible
  have hm := (texts_model h.sensible hV hD hx).1
  have hi : NetFile.interface r.file r.model = ok i := by
    unfold NetFile.parseModel at h2
    rw [hb, ok_bind] at h2
    simp only at h2
    cases hi : NetFile.interface r.file r.model with
    | ub => rw [hi] at h2; cases h2
    | ok j => rw [hi] at h2; cases h2; rfl
  have hnamed : ∀ v ∈ r.file.vars, r.texts.Named v (namesOf r.texts v) := by
    intro v hv
    obtain ⟨names, hn⟩ := hm.named v hv
    have : namesOf r.texts v = names := by unfold namesOf; rw [hn.1]; rfl
    rw [this]
    exact hn
  have hcol := columns_text h.sensible hV hD hx h.columns
  have hread := readTimeseries_eq r.texts r.file.vars hm.nodup (namesOf r.texts) hnamed data (by rw [hdr_eq]; exact hcol)
  refine ⟨r, i, ?_, hV, hT, hD, h2, hx⟩
  unfold openFiles openModel
  rw [h1]
  simp only [ok_bind]
  rw [hi]
  simp only [ok_bind]
  rw [hread]
  simp only [ok_bind, Option.map_some]
  rw [hdr_eq]
  rfl

theorem group_counted (x : VarTexts) (vars : List Nat) (data : List Char) (lines : List (List Char)) : Counted (readGroup x vars data lines) := by
  unfold Counted readGroup readTs
  simp only
  omega

theorem group_data (x : VarTexts) (vars : List Nat) (data : List Char) (lines : List (List Char)) : (filled (readGroup x vars data lines)).data =
    lines.map (fun l => (cols x vars (columnNames data)).map (fieldValue (namesOf x) (fields fieldSeparator l))) := by
  unfold filled readGroup readTs
  simp only
  by_cases h0 : (cols x vars (columnNames data)).length = 0
  · rw [if_pos h0, List.eq_nil_of_length_eq_zero h0]
    simp
  · rw [if_neg h0, if_neg h0]

theorem group_series {f : NetFile K} {x : VarTexts} {data : List Char} (hcol : (columnVars x f.vars (columnNames data)).Nodup) (lines : List (List Char)) :
    SeriesOf f (filled (readGroup x f.vars data lines)) := by
  have hlen : (columnVars x f.vars (columnNames data)).length = (cols x f.vars (columnNames data)).length := List.length_map _
  refine ⟨⟨hlen.symm, ?_, ?_, ?_⟩, hcol, fun v hv => columnVars_subset _ _ _ hv⟩
  · show (f.vars.length : Int) - ((f.vars.length : Int) - (cols x f.vars (columnNames data)).length) = (columnVars x f.vars (columnNames data)).length
    rw [hlen]
    omega
  · rw [group_data, List.length_map]
    rfl
  · intro row hrow
    rw [group_data] at hrow
    obtain ⟨l, _, rfl⟩ := List.mem_map.1 hrow
    rw [List.length_map]
    exact hlen.symm

theorem group_nonempty {data : List Char} {lines : List (List Char)} (hl : lines ∈ groupsOf data) : 0 < lines.length := by
  unfold groupsOf series groups at hl
  have := (List.mem_filter.1 hl).2
  cases lines with
  | nil => simp at this
  | cons a l => simp

/-- what is seen in a group of lines is what they tell -/
theorem group_support {num : Numerals K} {d : NetText} {net data : List Char} (h : UsableFiles num d net data) {base : Nat} {f : NetFile K} (hV : f.Valid)
    (hD : d.Describes num.value base f) {x : VarTexts} (hx : TellsNodes d base x) {lines : List (List Char)} (hl : lines ∈ groupsOf data) (s : Nat) (t : Findings K)
    (hs : (tellings d data lines)[s]? = some t) (z : Nat → Nat) (hz : Legal f.card f.vars z) :
    (f.vars.map (fun v => (vision (K := K) f.card (allSeen (filled (readGroup x f.vars data lines)) s) v).getD (z v) 0)).prod = d.support t (f.vars.map z) := by
  unfold tellings at hs
  rw [List.getElem?_map] at hs
  obtain ⟨line, hline, rfl⟩ := Option.map_eq_some_iff.1 hs
  have := line_support (line := line) h.sensible hV hD hx h.states h.columns (fun l hl' n hn c hc => by
    rw [List.mem_singleton] at hl'
    subst hl'
    exact h.long lines hl l (List.mem_of_getElem? hline) n hn c hc) hz
  rw [← this]
  have hrow : allSeen (filled (readGroup x f.vars data lines)) s = rowSees (fun _ => true) (columnVars x f.vars (columnNames data))
      ((cols x f.vars (columnNames data)).map (fieldValue (fun v => (x.names v).getD []) (fields fieldSeparator line))) := by
    funext v
    unfold allSeen dataSees
    rw [group_data, List.getD_eq_getElem?_getD, List.getElem?_map, hline]
    rfl
  rw [hrow]

theorem group_posterior {num : Numerals K} {d : NetText} {net data : List Char} {R : Reading K} (hR : AlwaysReads num d R) (h : UsableFiles num d net data) {base : Nat} {f : NetFile K} (hV : f.Valid)
    (hD : d.Describes num.value base f) {x : VarTexts} (hx : TellsNodes d base x) {lines : List (List Char)} (hl : lines ∈ groupsOf data) (ht : Tellable R d data lines) :
    Possible f (filled (readGroup x f.vars data lines)) ∧ ∀ t < lines.length, ∀ n ∈ d.nodes,
      f.unrolledPosterior (allSeen (filled (readGroup x f.vars data lines))) lines.length t (base + d.place n.name) =
        d.storyPosterior R (tellings d data lines) t n.name := by
  have hne : tellings (K := K) d data lines ≠ [] := by
    unfold tellings
    intro h0
    rw [List.map_eq_nil_iff] at h0
    subst h0
    exact absurd (group_nonempty hl) (by simp)
  have hlen : (tellings (K := K) d data lines).length = lines.length := List.length_map _
  have key := posterior_text h.sensible hV hD (hR _ _ hV hD) (allSeen (filled (readGroup x f.vars data lines))) hne (group_support h hV hD hx hl) ht
  rw [hlen] at key
  exact ⟨key.1, fun t htl n hn => key.2 t htl n.name ⟨n, hn, rfl⟩⟩

/-! ## C82 -/

/-- The lines written for a group of lines: one for each line, with a number for each state; if the group is possible, the conditional probabilities. -/
def SmoothedGroup (R : Reading K) (d : NetText) (data : List Char) (fmt : K → List Char) (name : List Char) (lines : List (List Char))
    (rows : List (List (List Char))) : Prop :=
  rows.length = lines.length ∧ (∀ row ∈ rows, row.length = d.card name) ∧
    (Tellable R d data lines → rows = (List.range lines.length).map (fun t => (d.storyPosterior R (tellings d data lines) t name).map fmt))

/-- What `nipinference` should write, if the numbers of the network file are read as `R`. -/
def InfersBy (R : Reading K) (num : Numerals K) (d : NetText) (net data : List Char) : Prop :=
  ∀ (lg : Logs K) (fmt : K → List Char) (ptr : Nat) (s : Session K), s.lex.readLine = true → s.g.Fresh → ∀ n ∈ d.nodes,
    ∃ out, inferenceMain lg fmt num ptr s net data n.name = ok (0, some (dataText n.states out)) ∧
      List.Forall₂ (SmoothedGroup R d data fmt n.name) (groupsOf data) out

/-- What `nipinference` should write. -/
def InfersRight (num : Numerals K) (d : NetText) (net data : List Char) : Prop := InfersBy (d.prob num.value) num d net data

variable (K) in
/-- **C82** in full: every description that makes sense and every data file with at least one line of data. -/
def C82_full : Prop := ∀ (num : Numerals K) (d : NetText) (net data : List Char), d.Sensible num.value num.int → LaidOut d net → groupsOf data ≠ [] → InfersRight num d net data

/-- `nipinference`, in terms of the network read -/
theorem infers_all {num : Numerals K} {d : NetText} {net data : List Char} (h : UsableFiles num d net data) (hne : groupsOf data ≠ []) (lg : Logs K) (fmt : K → List Char) (ptr : Nat)
    {s : Session K} (hr : s.lex.readLine = true) (hg : s.g.Fresh) {n : NodeText} (hn : n ∈ d.nodes) :
    ∃ f x out, f.Valid ∧ d.Describes num.value s.g.nextId f ∧ TellsNodes d s.g.nextId x ∧ inferenceMain lg fmt num ptr s net data n.name = ok (0, some (dataText n.states out)) ∧
      List.Forall₂ (fun lines rows => rows = (List.range lines.length).map (fun t =>
        (NetFile.reply f (allSeen (filled (readGroup x f.vars data lines))) lines.length t (s.g.nextId + d.place n.name)).map fmt)) (groupsOf data) out := by
  obtain ⟨r, i, h1, hV, hT, hD, h2, hx⟩ := opened h ptr hr hg
  obtain ⟨hm, hcard⟩ := texts_model h.sensible hV hD hx
  have hcol := columns_text h.sensible hV hD hx h.columns
  have hv := of_node hD hn
  obtain ⟨m', i', out, e1, e2, e3⟩ := inference_lines ptr hV hT ⟨hm, hcard⟩ lg fmt (set := ((groupsOf data).map (readGroup r.texts r.file.vars data)).map filled)
    (by simpa using hne) (by
      intro ts hts
      rw [List.map_map] at hts
      obtain ⟨lines, _, rfl⟩ := List.mem_map.1 hts
      exact group_series hcol lines) hv (names := n.states) ⟨(hx n hn).2.1, (hx n hn).2.2.symm⟩
  rw [h2] at e1
  cases e1
  rw [nipinference_filled _ _ _ _ _ _ (by
    intro ts hts
    obtain ⟨lines, _, rfl⟩ := List.mem_map.1 hts
    exact group_counted _ _ _ _), (hx n hn).1] at e2
  refine ⟨r.file, r.texts, out, hV, hD, hx, ?_, ?_⟩
  · unfold inferenceMain
    rw [h1, ok_bind]
    exact e2
  · rw [List.map_map, List.forall₂_map_left_iff] at e3
    exact e3

/-- `nipinference`, for any meaning of the numbers with which the tables agree -/
theorem infers_read {num : Numerals K} {d : NetText} {net data : List Char} {R : Reading K} (hR : AlwaysReads num d R) (h : UsableFiles num d net data) (hne : groupsOf data ≠ []) :
    InfersBy R num d net data := by
  intro lg fmt ptr s hr hg n hn
  obtain ⟨f, x, out, hV, hD, hx, e1, e2⟩ := infers_all h hne lg fmt ptr hr hg hn
  refine ⟨out, e1, ?_⟩
  rw [List.forall₂_iff_get] at e2 ⊢
  refine ⟨e2.1, fun k hk hk' => ?_⟩
  have hrows := e2.2 k hk hk'
  have hl : (groupsOf data).get ⟨k, hk⟩ ∈ groupsOf data := List.get_mem _ _
  generalize (groupsOf data).get ⟨k, hk⟩ = lines at *
  generalize out.get ⟨k, hk'⟩ = rows at *
  subst hrows
  refine ⟨by simp, fun row hrow => ?_, fun ht => ?_⟩
  · obtain ⟨t, _, rfl⟩ := List.mem_map.1 hrow
    rw [List.length_map, reply_length, describes_card hD ⟨n, hn, rfl⟩]
  · obtain ⟨g1, g2⟩ := group_posterior hR h hV hD hx hl ht
    refine List.map_congr_left fun t htl => ?_
    rw [← g2 t (List.mem_range.1 htl) n hn, reply_possible hV (List.mem_range.1 htl) (of_node hD hn) g1]

/-- **C82** (partial): for good files.  What is missing: the files that are not good; for those with late parents (C47), labels (C68), two columns or short
lines (C63) the program is wrong. -/
theorem C82_inference_partial {num : Numerals K} {d : NetText} {net data : List Char} (h : GoodFiles num d net data) (hne : groupsOf data ≠ []) : InfersRight num d net data :=
  infers_read (always_prob h.sensible h.order) h.toUsableFiles hne

/-! ## C83 -/

/-- the nodes without a column -/
def unseen (d : NetText) (data : List Char) : List NodeText := d.nodes.filter (fun n => decide (n.name ∉ columnNames data))

/-- The lines written for a group of lines: one for each line, with the name of a state for each node without a column; if the group is possible, the first of
the states with the greatest conditional probability. -/
def MappedGroup (R : Reading K) (d : NetText) (data : List Char) (lines : List (List Char)) (rows : List (List (List Char))) : Prop :=
  rows.length = lines.length ∧ (∀ row ∈ rows, row.length = (unseen d data).length) ∧
    ∀ (t i : Nat) row n w, rows[t]? = some row → (unseen d data)[i]? = some n → row[i]? = some w →
      ∃ k : Nat, n.states[k]? = some w ∧ (Tellable R d data lines → FirstMax (d.storyPosterior R (tellings d data lines) t n.name) k)

/-- What `nipmap` should write, if the numbers of the network file are read as `R`. -/
def MapsBy (R : Reading K) (num : Numerals K) (d : NetText) (net data : List Char) : Prop :=
  ∀ (ptr : Nat) (s : Session K), s.lex.readLine = true → s.g.Fresh →
    ∃ out, mapMain num ptr s net data = ok (0, some (dataText ((unseen d data).map (fun n => n.name)) out)) ∧
      List.Forall₂ (MappedGroup R d data) (groupsOf data) out

/-- What `nipmap` should write. -/
def MapsRight (num : Numerals K) (d : NetText) (net data : List Char) : Prop := MapsBy (d.prob num.value) num d net data

variable (K) in
/-- **C83** in full: every description that makes sense and every data file with at least one line of data and not all nodes. -/
def C83_full : Prop := ∀ (num : Numerals K) (d : NetText) (net data : List Char), d.Sensible num.value num.int → LaidOut d net → groupsOf data ≠ [] → unseen d data ≠ [] →
  MapsRight num d net data

theorem vars_nodes {num : Numerals K} {d : NetText} {base : Nat} {f : NetFile K} (hd : d.Sensible num.value num.int) (hD : d.Describes num.value base f) :
    f.vars = d.nodes.map (fun n => base + d.place n.name) := by
  rw [hD.vars]
  refine List.ext_getElem (by simp) fun i h1 h2 => ?_
  rw [List.getElem_range', List.getElem_map, place_getElem hd.names (by simpa using h1)]
  omega

theorem hidden_nodes {num : Numerals K} {d : NetText} {base : Nat} {f : NetFile K} (hd : d.Sensible num.value num.int) (hV : f.Valid) (hD : d.Describes num.value base f)
    {x : VarTexts} (hx : TellsNodes d base x) (data : List Char) (lines : List (List Char)) :
    (readGroup x f.vars data lines).hidden = (unseen d data).map (fun n => base + d.place n.name) := by
  show others x f.vars (columnNames data) f.vars = _
  rw [others_eq]
  unfold unseen
  have hm := (texts_model hd hV hD hx).1
  have hc : ∀ n ∈ d.nodes, (base + d.place n.name ∉ columnVars x f.vars (columnNames data)) ↔ n.name ∉ columnNames data := by
    intro n hn
    refine not_congr ?_
    rw [mem_columnVars]
    constructor
    · rintro ⟨w, hw, hv⟩
      obtain ⟨_, rfl⟩ := (search_symbol hm _ _).1 hv
      rwa [(hx n hn).1] at hw
    · intro h
      exact ⟨n.name, h, (search_symbol hm _ _).2 ⟨of_node hD hn, (hx n hn).1.symm⟩⟩
  have hvars := vars_nodes hd hD
  generalize columnVars x f.vars (columnNames data) = C at hc
  rw [hvars, List.filter_map]
  congr 1
  refine List.filter_congr fun n hn => ?_
  simp only [Function.comp_def]
  exact decide_eq_decide.2 (hc n hn)

/-- `nipmap`, in terms of the network read -/
theorem maps_all {num : Numerals K} {d : NetText} {net data : List Char} (h : UsableFiles num d net data) (hne : groupsOf data ≠ []) (hun : unseen d data ≠ []) (ptr : Nat)
    {s : Session K} (hr : s.lex.readLine = true) (hg : s.g.Fresh) :
    ∃ f x out, f.Valid ∧ d.Describes num.value s.g.nextId f ∧ TellsNodes d s.g.nextId x ∧
      mapMain num ptr s net data = ok (0, some (dataText ((unseen d data).map (fun n => n.name)) out)) ∧
      List.Forall₂ (fun lines rows => rows.length = lines.length ∧ (∀ row ∈ rows, row.length = (unseen d data).length) ∧
        ∀ (t i : Nat) row n w, rows[t]? = some row → (unseen d data)[i]? = some n → row[i]? = some w →
          ∃ k : Nat, n.states[k]? = some w ∧
            FirstMax (NetFile.reply f (allSeen (filled (readGroup x f.vars data lines))) lines.length t (s.g.nextId + d.place n.name)) k) (groupsOf data) out := by
  obtain ⟨r, i, h1, hV, hT, hD, h2, hx⟩ := opened h ptr hr hg
  obtain ⟨hm, hcard⟩ := texts_model h.sensible hV hD hx
  have hcol := columns_text h.sensible hV hD hx h.columns
  have hhid := hidden_nodes h.sensible hV hD hx data
  have hset : ∀ ts ∈ ((groupsOf data).map (readGroup r.texts r.file.vars data)).map filled, SeriesOf r.file ts ∧ HiddenOf r.file ts := by
    intro ts hts
    rw [List.map_map] at hts
    obtain ⟨lines, _, rfl⟩ := List.mem_map.1 hts
    refine ⟨group_series hcol lines, ?_, ?_, ?_⟩
    · show (r.file.vars.length : Int) - (cols r.texts r.file.vars (columnNames data)).length = (others r.texts r.file.vars (columnNames data) r.file.vars).length
      have := others_length r.texts r.file.vars (columnNames data) hm.nodup
      rw [hcol.dedup] at this
      have hlen : (columnVars r.texts r.file.vars (columnNames data)).length = (cols r.texts r.file.vars (columnNames data)).length := List.length_map _
      omega
    · show (readGroup r.texts r.file.vars data lines).hidden ≠ []
      rw [hhid]
      simpa using hun
    · intro v hv
      have hv : v ∈ (readGroup r.texts r.file.vars data lines).hidden := hv
      rw [hhid] at hv
      obtain ⟨n, hn, rfl⟩ := List.mem_map.1 hv
      exact of_node hD (List.mem_of_mem_filter hn)
  cases hgr : groupsOf data with
  | nil => exact absurd hgr hne
  | cons first rest =>
    rw [hgr, List.map_cons, List.map_cons] at hset
    obtain ⟨m', i', out, e1, e2, e3⟩ := map_lines ptr hV hT ⟨hm, hcard⟩ hset
    rw [h2] at e1
    cases e1
    have hfill := nipmap_filled r.texts i (set := (groupsOf data).map (readGroup r.texts r.file.vars data)) (by
      intro ts hts
      obtain ⟨lines, _, rfl⟩ := List.mem_map.1 hts
      exact group_counted _ _ _ _) r.model
    rw [hgr, List.map_cons, List.map_cons] at hfill
    rw [hfill] at e2
    rw [← hgr]
    refine ⟨r.file, r.texts, out, hV, hD, hx, ?_, ?_⟩
    · unfold mapMain
      rw [h1, ok_bind]
      simp only
      rw [hgr, List.map_cons, e2]
      have : (filled (readGroup r.texts r.file.vars data first)).hidden = (unseen d data).map (fun n => s.g.nextId + d.place n.name) := hhid first
      rw [this, List.map_map]
      congr 4
      refine List.map_congr_left fun n hn => ?_
      exact (hx n (List.mem_of_mem_filter hn)).1
    · rw [← List.map_cons, ← List.map_cons, ← hgr, List.map_map, List.forall₂_map_left_iff, List.forall₂_iff_get] at e3
      rw [List.forall₂_iff_get]
      refine ⟨e3.1, fun k hk hk' => ?_⟩
      obtain ⟨f1, f2, f3⟩ := e3.2 k hk hk'
      have hl : (groupsOf data).get ⟨k, hk⟩ ∈ groupsOf data := List.get_mem _ _
      generalize (groupsOf data).get ⟨k, hk⟩ = lines at *
      generalize out.get ⟨k, hk'⟩ = rows at *
      have hh : (filled (readGroup r.texts r.file.vars data lines)).hidden = (unseen d data).map (fun n => s.g.nextId + d.place n.name) := hhid lines
      refine ⟨f1, fun row hrow => ?_, fun t j row n w ht hj hw => ?_⟩
      · rw [f2 row hrow, Function.comp_apply, hh, List.length_map]
      · have hn : n ∈ d.nodes := List.mem_of_mem_filter (List.mem_of_getElem? hj)
        obtain ⟨names, k', g1, g2, g3⟩ := f3 t j (s.g.nextId + d.place n.name) row w ht (by rw [Function.comp_apply, hh, List.getElem?_map, hj]; rfl) hw
        have hnames : names = n.states := by
          have := g1.1
          rw [(hx n hn).2.1] at this
          exact (Option.some.inj this).symm
        rw [hnames] at g2
        exact ⟨k', g2, g3⟩

/-- `nipmap`, for any meaning of the numbers with which the tables agree -/
theorem maps_read {num : Numerals K} {d : NetText} {net data : List Char} {R : Reading K} (hR : AlwaysReads num d R) (h : UsableFiles num d net data) (hne : groupsOf data ≠ []) (hun : unseen d data ≠ []) :
    MapsBy R num d net data := by
  intro ptr s hr hg
  obtain ⟨f, x, out, hV, hD, hx, e1, e2⟩ := maps_all h hne hun ptr hr hg
  refine ⟨out, e1, ?_⟩
  rw [List.forall₂_iff_get] at e2 ⊢
  refine ⟨e2.1, fun k hk hk' => ?_⟩
  obtain ⟨f1, f2, f3⟩ := e2.2 k hk hk'
  have hl : (groupsOf data).get ⟨k, hk⟩ ∈ groupsOf data := List.get_mem _ _
  generalize (groupsOf data).get ⟨k, hk⟩ = lines at *
  generalize out.get ⟨k, hk'⟩ = rows at *
  refine ⟨f1, f2, fun t j row n w ht hj hw => ?_⟩
  have hn : n ∈ d.nodes := List.mem_of_mem_filter (List.mem_of_getElem? hj)
  obtain ⟨k', g1, g2⟩ := f3 t j row n w ht hj hw
  refine ⟨k', g1, fun htell => ?_⟩
  obtain ⟨p1, p2⟩ := group_posterior hR h hV hD hx hl htell
  have htl : t < lines.length := by rw [← f1]; exact (List.getElem?_eq_some_iff.1 ht).1
  rw [← p2 t htl n hn, ← reply_possible hV htl (of_node hD hn) p1]
  exact g2

/-- **C83** (partial): for good files.  What is missing: the files that are not good. -/
theorem C83_map_partial {num : Numerals K} {d : NetText} {net data : List Char} (h : GoodFiles num d net data) (hne : groupsOf data ≠ []) (hun : unseen d data ≠ []) :
    MapsRight num d net data :=
  maps_read (always_prob h.sensible h.order) h.toUsableFiles hne hun

/-! ## C84 -/

/-- The line printed for a group: a number for each state; if the group is possible, the logarithms of the conditional probabilities in the time step of its last line. -/
def LastOfGroup (R : Reading K) (d : NetText) (data : List Char) (lg : Logs K) (fmt : K → List Char) (name : List Char) (lines : List (List Char)) (row : List (List Char)) : Prop :=
  row.length = d.card name ∧
    (Tellable R d data lines → row = (d.storyPosterior R (tellings d data lines) (lines.length - 1) name).map (fun a => fmt (lg.log a)))

/-- What `nipnext` should print, if the numbers of the network file are read as `R`. -/
def NextsBy (R : Reading K) (num : Numerals K) (d : NetText) (net data : List Char) : Prop :=
  ∀ (lg : Logs K) (fmt : K → List Char) (ptr : Nat) (s : Session K), s.lex.readLine = true → s.g.Fresh → ∀ n ∈ d.nodes,
    ∃ rows, nextMain lg fmt num ptr s net data n.name = ok (0, line n.states ++ (rows.map line).flatten) ∧
      List.Forall₂ (LastOfGroup R d data lg fmt n.name) (groupsOf data) rows

/-- What `nipnext` should print. -/
def NextsRight (num : Numerals K) (d : NetText) (net data : List Char) : Prop := NextsBy (d.prob num.value) num d net data

variable (K) in
/-- **C84** in full: every description that makes sense and every data file with at least one line of data. -/
def C84_full : Prop := ∀ (num : Numerals K) (d : NetText) (net data : List Char), d.Sensible num.value num.int → LaidOut d net → groupsOf data ≠ [] → NextsRight num d net data

/-- `nipnext`, in terms of the network read -/
theorem nexts_all {num : Numerals K} {d : NetText} {net data : List Char} (h : UsableFiles num d net data) (hne : groupsOf data ≠ []) (lg : Logs K) (fmt : K → List Char) (ptr : Nat)
    {s : Session K} (hr : s.lex.readLine = true) (hg : s.g.Fresh) {n : NodeText} (hn : n ∈ d.nodes) :
    ∃ f x rows, f.Valid ∧ d.Describes num.value s.g.nextId f ∧ TellsNodes d s.g.nextId x ∧
      nextMain lg fmt num ptr s net data n.name = ok (0, line n.states ++ (rows.map line).flatten) ∧
      List.Forall₂ (fun lines row => row = (NetFile.reply f (allSeen (filled (readGroup x f.vars data lines))) lines.length (lines.length - 1) (s.g.nextId + d.place n.name)).map
        (fun a => fmt (lg.log a))) (groupsOf data) rows := by
  obtain ⟨r, i, h1, hV, hT, hD, h2, hx⟩ := opened h ptr hr hg
  obtain ⟨hm, hcard⟩ := texts_model h.sensible hV hD hx
  have hcol := columns_text h.sensible hV hD hx h.columns
  have hv := of_node hD hn
  obtain ⟨m', i', out, e1, e2, e3⟩ := next_lines ptr hV hT ⟨hm, hcard⟩ lg fmt (set := ((groupsOf data).map (readGroup r.texts r.file.vars data)).map filled)
    (by simpa using hne) (by
      intro ts hts
      rw [List.map_map] at hts
      obtain ⟨lines, _, rfl⟩ := List.mem_map.1 hts
      exact group_series hcol lines) hv (names := n.states) ⟨(hx n hn).2.1, (hx n hn).2.2.symm⟩
  rw [h2] at e1
  cases e1
  rw [nipnext_filled _ _ _ _ _ _ (by
    intro ts hts
    obtain ⟨lines, _, rfl⟩ := List.mem_map.1 hts
    exact group_counted _ _ _ _), (hx n hn).1] at e2
  refine ⟨r.file, r.texts, out, hV, hD, hx, ?_, ?_⟩
  · unfold nextMain
    rw [h1, ok_bind]
    exact e2
  · rw [List.filter_eq_self.2 (by
      intro ts hts
      rw [List.map_map] at hts
      obtain ⟨lines, hl, rfl⟩ := List.mem_map.1 hts
      exact decide_eq_true (group_nonempty hl)), List.map_map, List.forall₂_map_left_iff] at e3
    exact e3

/-- `nipnext`, for any meaning of the numbers with which the tables agree -/
theorem nexts_read {num : Numerals K} {d : NetText} {net data : List Char} {R : Reading K} (hR : AlwaysReads num d R) (h : UsableFiles num d net data) (hne : groupsOf data ≠ []) :
    NextsBy R num d net data := by
  intro lg fmt ptr s hr hg n hn
  obtain ⟨f, x, out, hV, hD, hx, e1, e2⟩ := nexts_all h hne lg fmt ptr hr hg hn
  refine ⟨out, e1, ?_⟩
  rw [List.forall₂_iff_get] at e2 ⊢
  refine ⟨e2.1, fun k hk hk' => ?_⟩
  have hrow := e2.2 k hk hk'
  have hl : (groupsOf data).get ⟨k, hk⟩ ∈ groupsOf data := List.get_mem _ _
  generalize (groupsOf data).get ⟨k, hk⟩ = lines at *
  generalize out.get ⟨k, hk'⟩ = row at *
  subst hrow
  refine ⟨by rw [List.length_map, reply_length, describes_card hD ⟨n, hn, rfl⟩], fun ht => ?_⟩
  obtain ⟨g1, g2⟩ := group_posterior hR h hV hD hx hl ht
  have hpos := group_nonempty hl
  rw [← g2 (lines.length - 1) (by omega) n hn, reply_possible hV (show lines.length - 1 < lines.length by omega) (of_node hD hn) g1]

/-- **C84** (partial): for good files.  What is missing: the files that are not good. -/
theorem C84_next_partial {num : Numerals K} {d : NetText} {net data : List Char} (h : GoodFiles num d net data) (hne : groupsOf data ≠ []) : NextsRight num d net data :=
  nexts_read (always_prob h.sensible h.order) h.toUsableFiles hne

/-! ## witnesses -/

/-- a network over time: `B` (seen) depends on `A`, and `A` on `O`, which is `A` of the time step before -/
def rain : NetText :=
  { frame := .net []
    nodes := [plainText "B", plainText "A", { plainText "O" with fields := .next "A".toList :: (plainText "O").fields }]
    pots := [{ child := "A".toList, parents := some ["O".toList],
               data := some (.group (.num "0.7".toList (.num "0.3".toList .nil)) (.group (.num "0.2".toList (.num "0.8".toList .nil)) .nil)) },
      { child := "O".toList, parents := none, data := some (.num "0.6".toList (.num "0.4".toList .nil)) },
      { child := "B".toList, parents := some ["A".toList],
               data := some (.group (.num "0.9".toList (.num "0.1".toList .nil)) (.group (.num "0.1".toList (.num "0.9".toList .nil)) .nil)) }] }

theorem rain_sensible : rain.Sensible decimalNum.value decimalNum.int := by
  have hval : ∀ w, (0 : ℚ) ≤ decimalNum.value w := fun w => by unfold decimalNum; positivity
  refine ⟨by decide, by decide, ?_, ?_, ?_, ?_, by decide⟩
  · intro n hn
    simp only [rain, List.mem_cons, List.not_mem_nil, or_false] at hn
    rcases hn with rfl | rfl | rfl <;> exact ⟨by decide, by decide, fun p hp => by cases hp; decide +kernel⟩
  · intro x y h
    cases h
  · intro n hn w hw
    simp only [rain, List.mem_cons, List.not_mem_nil, or_false] at hn
    rcases hn with rfl | rfl | rfl
    · cases hw
    · cases hw
    · cases hw
      exact ⟨by decide, by decide⟩
  · intro p hp
    simp only [rain, List.mem_cons, List.not_mem_nil, or_false] at hp
    rcases hp with rfl | rfl | rfl
    · exact ⟨by decide, by decide, by decide, fun g hg => by cases hg; exact ⟨by decide, fun w _ => hval w⟩⟩
    · exact ⟨by decide, by decide, by decide, fun g hg => by cases hg; exact ⟨by decide, fun w _ => hval w⟩⟩
    · exact ⟨by decide, by decide, by decide, fun g hg => by cases hg; exact ⟨by decide, fun w _ => hval w⟩⟩

/-- two series; a column that belongs to no node -/
def rainData : List Char := "Z, B\n1, x\n2, y\n\n3, ?\n".toList

theorem rain_good : GoodFiles decimalNum rain (fileText (wordLines rain.lexemes)) rainData where
  sensible := rain_sensible
  laidOut := laidOut_words rain (by decide +kernel)
  short := by
    refine ⟨by decide, ?_, by decide⟩
    intro n hn w hw
    simp only [rain, List.mem_cons, List.not_mem_nil, or_false] at hn
    rcases hn with rfl | rfl | rfl <;> cases hw
  labels := by unfold LabelsLast; decide
  pots := by decide
  order := by decide
  temporal := by
    constructor
    · intro n hn w hw
      simp only [rain, List.mem_cons, List.not_mem_nil, or_false] at hn
      rcases hn with rfl | rfl | rfl
      · cases hw
      · cases hw
      · exact ⟨_, List.mem_cons_self, by decide⟩
    · intro n hn m hm w hw hw'
      simp only [rain, List.mem_cons, List.not_mem_nil, or_false] at hn hm
      rcases hn with rfl | rfl | rfl
      · cases hw
      · cases hw
      · rcases hm with rfl | rfl | rfl
        · cases hw'
        · cases hw'
        · rfl
  states := by decide
  columns := by
    have h : columnNames rainData = ["Z".toList, "B".toList] := by decide +kernel
    rw [h]
    intro n hn c c' h1 h2
    have hc : c < 2 := by by_contra hge; rw [List.getElem?_eq_none (by simp only [List.length_cons, List.length_nil]; omega)] at h1; cases h1
    have hc' : c' < 2 := by by_contra hge; rw [List.getElem?_eq_none (by simp only [List.length_cons, List.length_nil]; omega)] at h2; cases h2
    simp only [rain, List.mem_cons, List.not_mem_nil, or_false] at hn
    interval_cases c <;> interval_cases c' <;> first
      | rfl
      | (exfalso; revert h1 h2; rcases hn with rfl | rfl | rfl <;> decide)
  long := by
    have h : columnNames rainData = ["Z".toList, "B".toList] := by decide +kernel
    have hg : groupsOf rainData = [["1, x\n".toList, "2, y\n".toList], ["3, ?\n".toList]] := by decide +kernel
    rw [h, hg]
    intro lines hl line hline n hn c hc
    have hc' : c < 2 := by by_contra hge; rw [List.getElem?_eq_none (by simp only [List.length_cons, List.length_nil]; omega)] at hc; cases hc
    have : (fields ',' line).length = 2 := by
      simp only [List.mem_cons, List.not_mem_nil, or_false] at hl
      rcases hl with rfl | rfl
      · simp only [List.mem_cons, List.not_mem_nil, or_false] at hline
        rcases hline with rfl | rfl <;> decide +kernel
      · simp only [List.mem_cons, List.not_mem_nil, or_false] at hline
        subst hline
        decide +kernel
    omega

/-- The hypotheses of C82, C83 and C84 are met, all groups are possible, and the texts written are these. -/
example : (∀ lines ∈ groupsOf rainData, Tellable (rain.prob decimalNum.value) rain rainData lines) ∧
    InfersRight decimalNum rain (fileText (wordLines rain.lexemes)) rainData ∧ MapsRight decimalNum rain (fileText (wordLines rain.lexemes)) rainData ∧
    NextsRight decimalNum rain (fileText (wordLines rain.lexemes)) rainData := by
  have hne : groupsOf rainData ≠ [] := by decide +kernel
  refine ⟨?_, C82_inference_partial rain_good hne, C83_map_partial rain_good hne (by decide +kernel), C84_next_partial rain_good hne⟩
  have hg : groupsOf rainData = [["1, x\n".toList, "2, y\n".toList], ["3, ?\n".toList]] := by decide +kernel
  rw [hg]
  unfold Tellable
  decide +kernel

/-- the texts written -/
example : inferenceMain exponents halves decimalNum 8 Session.initial (fileText (wordLines rain.lexemes)) rainData "A".toList =
      ok (0, some "x,y\nh,l\nl,h\n\nh,h\n\n".toList) ∧
    mapMain decimalNum 8 Session.initial (fileText (wordLines rain.lexemes)) rainData = ok (0, some "A,O\nx,x\ny,x\n\nx,x\n\n".toList) ∧
    nextMain exponents halves decimalNum 8 Session.initial (fileText (wordLines rain.lexemes)) rainData "A".toList = ok (0, "x,y\nl,l\nl,l\n".toList) := by
  decide +kernel

/-- `A` with parent `B`, the parent declared first; `B` is `x` with probability 0.51 -/
def earlyParent : NetText :=
  { lateWeather with
    pots := [{ child := "A".toList, parents := some ["B".toList],
               data := some (.group (.num "0.25".toList (.num "0.75".toList .nil)) (.group (.num "0.5".toList (.num "0.50".toList .nil)) .nil)) },
      { child := "B".toList, parents := none, data := some (.num "0.51".toList (.num "0.49".toList .nil)) }] }

theorem earlyParent_sensible : earlyParent.Sensible decimalNum.value decimalNum.int := by
  have hval : ∀ w, (0 : ℚ) ≤ decimalNum.value w := fun w => by unfold decimalNum; positivity
  refine ⟨by decide, by decide, lateWeather_sensible.3, lateWeather_sensible.4, by decide, ?_, by decide⟩
  intro p hp
  simp only [earlyParent, List.mem_cons, List.not_mem_nil, or_false] at hp
  rcases hp with rfl | rfl
  · exact ⟨by decide, by decide, by decide, fun g hg => by cases hg; exact ⟨by decide, fun w _ => hval w⟩⟩
  · exact ⟨by decide, by decide, by decide, fun g hg => by cases hg; exact ⟨by decide, fun w _ => hval w⟩⟩

/-- a line that tells nothing about `A` -/
def silentData : List Char := "A\n?\n".toList

theorem silent_groups : groupsOf silentData = [["?\n".toList]] := by decide +kernel

theorem silent_tellable : Tellable (earlyParent.prob decimalNum.value) earlyParent silentData ["?\n".toList] := by
  unfold Tellable
  decide +kernel

/-- the file of `earlyParent` -/
def earlyFile : List Char := fileText (wordLines earlyParent.lexemes)

/-- **C82 in full is false**: with the parent declared first, `nipinference` gives `B` other probabilities (7.14 to 7.84 rather than 51 to 49). -/
theorem C82_refuted : ¬ C82_full ℚ := by
  intro h
  obtain ⟨out, e1, e2⟩ := h decimalNum earlyParent earlyFile silentData earlyParent_sensible (laidOut_words earlyParent (by decide +kernel)) (by decide +kernel)
    exponents halves 8 Session.initial rfl Statics.initial_fresh (plainText "B") (by simp [earlyParent, lateWeather])
  rw [silent_groups] at e2
  cases e2 with
  | cons e3 e4 =>
    cases e4
    rw [e3.2.2 silent_tellable] at e1
    revert e1
    decide +kernel

/-- **C83 in full is false**: with the parent declared first, `nipmap` writes `y` for `B`, though `x` is more probable. -/
theorem C83_refuted : ¬ C83_full ℚ := by
  intro h
  obtain ⟨out, e1, e2⟩ := h decimalNum earlyParent earlyFile silentData earlyParent_sensible (laidOut_words earlyParent (by decide +kernel)) (by decide +kernel)
    (by decide +kernel) 8 Session.initial rfl Statics.initial_fresh
  rw [silent_groups] at e2
  cases e2 with
  | cons e3 e4 =>
    cases e4
    rename_i rows
    obtain ⟨h1, h2, h3⟩ := e3
    match rows, h1, h2, h3, e1 with
    | [row], _, h2, h3, e1 =>
      have hl : row.length = 1 := by
        rw [h2 row (by simp)]
        decide +kernel
      match row, hl, h3, e1 with
      | [w], _, h3, e1 =>
        obtain ⟨k, k1, k2⟩ := h3 0 0 [w] (plainText "B") w rfl (by decide +kernel) rfl
        have k2 := k2 silent_tellable
        have hk : k = 0 := by
          have : k < 2 := by by_contra hge; rw [List.getElem?_eq_none (by show 2 ≤ k; omega)] at k1; cases k1
          interval_cases k
          · rfl
          · exfalso
            obtain ⟨a, a1, _, a3⟩ := k2
            have hp : earlyParent.storyPosterior (earlyParent.prob decimalNum.value) (tellings earlyParent silentData ["?\n".toList]) 0 (plainText "B").name = [51 / 100, 49 / 100] := by
              decide +kernel
            rw [hp] at a1 a3
            have a4 := a3 0 (51 / 100) (by omega) rfl
            cases a1
            norm_num at a4
        subst hk
        have hw : w = "x".toList := by
          have : some "x".toList = some w := k1
          cases this
          rfl
        subst hw
        revert e1
        decide +kernel

/-- **C84 in full is false**: with the parent declared first, `nipnext` prints logarithms of other numbers. -/
theorem C84_refuted : ¬ C84_full ℚ := by
  intro h
  obtain ⟨out, e1, e2⟩ := h decimalNum earlyParent earlyFile silentData earlyParent_sensible (laidOut_words earlyParent (by decide +kernel)) (by decide +kernel)
    exponents (fun a => if a = exponents.log (51 / 100) then ['p'] else ['q']) 8 Session.initial rfl Statics.initial_fresh (plainText "B") (by simp [earlyParent, lateWeather])
  rw [silent_groups] at e2
  cases e2 with
  | cons e3 e4 =>
    cases e4
    rw [e3.2 silent_tellable] at e1
    revert e1
    decide +kernel

end Nip.Props
