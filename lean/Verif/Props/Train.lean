import Verif.Props.Sample
import Verif.TrainFiles

/-!
# C90: `niptrain` from the network file and the data file to the network that is written

`Verif/Spec/Trained.lean` says what training is; the networks, counts and likelihoods in it are those of `Verif/Spec/Learn.lean`.  What is written is read again
(`ReadsBack`, C71), so that the theorems are about the numbers in the output file and not about its layout.
-/

namespace Nip.Props

open Nip Res Spec

set_option linter.unusedSectionVars false
set_option synthInstance.maxSize 1000

variable {K : Type} [Field K] [LinearOrder K] [IsStrictOrderedRing K]

/-- Files from which `niptrain` learns: they are good, what is learned can be written, there is a line of data, and a node has a column. -/
structure GoodLesson (num : Numerals K) (d : NetText) (net data : List Char) : Prop extends GoodFiles num d net data where
  writable : WritableNet d
  lines : groupsOf data ≠ []
  column : ∃ n ∈ d.nodes, n.name ∈ columnNames data

/-- The last call of the last run: the data are possible in the network that it leaves, it has at least three rounds, and the likelihood is high enough. -/
structure Succeeds (a : Lesson K) (cs : List (Spec.Call K)) (c : Spec.Call K) : Prop where
  last : cs.getLast? = some c
  luck : c.ending ≠ .badLuck
  explains : (c.net a).Explains a.data
  rounds : 2 ≤ c.last
  enough : a.least ≤ c.mean a

/-- What `niptrain` should do after so many calls of the learning function: either all runs so far have failed and the last one is not over; or all runs before
have failed and the last one succeeds; then a text is written from which a network is read with the nodes of `r` and the numbers of the last call, up to rounding, and
the learning curve of the last run is printed, rounded. -/
def Trains (num : Numerals K) (shown : K → List Char) (r : ReadModel K) (a : Lesson K) (random : Bool) (calls : Nat) (result : Option (Int × Option (List Char) × List Char)) : Prop :=
  (result = none ∧ ∃ failed, AreRuns a 0 0 random .badLuck a.most a.file failed ∧ (∀ cs ∈ failed, Fails a cs) ∧ calls < failed.flatten.length + callsIn a.most) ∨
    ∃ text ys failed good c, result = some (0, some text, curveText shown ys) ∧ AreRuns a 0 0 random .badLuck a.most a.file (failed ++ [good]) ∧
      (∀ cs ∈ failed, Fails a cs) ∧ Succeeds a good c ∧ ReadsBack num (fun ρ _ g => CloseTables ρ (c.net a) g) r text ∧
      List.Forall₂ (Nearest a.threshold) (good.flatMap (Spec.Call.curve a)) ys

/-- What `niptrain` should do with usable arguments. -/
def TrainsRight (num : Numerals K) (d : NetText) (net data : List Char) : Prop :=
  ∀ (g : Logs K) (fmt shown : K → List Char) (rint : K → K) (rand : Nat → Nat → Nat → Nat → K), Formats num fmt → g.Law → (∀ b, 0 < b → b ≤ 1 → g.log b ≤ 0) →
    RoundsToInt rint → (∀ n k i j, 0 ≤ rand n k i j) → ∀ (ptr : Nat) (s : Session K), s.lex.readLine = true → s.g.Fresh → s.g.sizeX < 2147483648 ∧ s.g.sizeY < 2147483648 →
    ∃ r e info, parseModel num ptr s net = ok (some r, e) ∧ d.Describes num.value s.g.nextId r.file ∧ d.Tells s.g.nextId (columnNames data) (groupsOf data) info ∧
      ∀ (random : Bool) (threshold least : K) (most : Option Int), 0 < threshold → threshold ≤ 1 → least < 0 → ∀ calls, ∃ result,
        trainMain g fmt shown rint num ptr s rand calls net data random (some threshold) (some least) most = ok result ∧
          Trains num shown r { file := r.file, data := info, rand := rand, log := g.log, lowest := g.lowest, threshold := threshold, least := least, most := most.getD longMax }
            random calls result

variable (K) in
/-- **C90** in full: every network file that makes sense, and every data file with a line of data and a column of a node. -/
def C90_full : Prop := ∀ (num : Numerals K) (d : NetText) (net data : List Char), (∀ w n, num.int w = some n → n < 2147483648) → d.Sensible num.value num.int → LaidOut d net →
  groupsOf data ≠ [] → (∃ n ∈ d.nodes, n.name ∈ columnNames data) → TrainsRight num d net data

/-- the text written by a call without bad luck -/
theorem written_back {num : Numerals K} {fmt : K → List Char} (hF : Formats num fmt) {r : ReadModel K} (hf : r.file.Valid) (hp : r.Printable)
    (hfirst : ∀ q ∈ r.file.pots, ∀ u ∈ q.parents, q.child < u) (hcard : ∀ v ∈ r.file.vars, r.file.card v ≤ 1000000) {a : Lesson K} (ha : a.file = r.file)
    {c : Spec.Call K} (h0 : ∀ v cell, 0 ≤ c.start v cell) (hl : 1 ≤ c.last) {i : Interface} {m : Model K} (hm : Ready a.file (c.net a) i m) :
    ∃ out m2, writeModel fmt { r with model := m } = ok (out, m2) ∧ ReadsBack num (fun ρ _ g => CloseTables ρ (c.net a) g) r out := by
  obtain ⟨m1, i1, i2, _⟩ := idle_again hm.idle
  obtain ⟨count, c1, c2⟩ := net_later (a := a) (by rw [ha]; exact hf) h0 hl
  rw [ha] at c2
  have hv : Variant r.file (c.net a) := ha ▸ hm.variant
  rw [c2] at i2 hv ⊢
  have hval := relearn_valid hf (count := count) (fun v cell => (c1 v cell).le)
  have hfirst' : ∀ q ∈ (r.file.relearn count).pots, ∀ u ∈ q.parents, q.child < u := by
    intro q hq u hu
    obtain ⟨v, hv, rfl⟩ := List.mem_map.mp (show q ∈ r.file.vars.map (r.file.learnedTable count) from hq)
    have hu : u ∈ r.file.givens v := hu
    unfold NetFile.givens at hu
    split at hu
    · rename_i q' hq'
      have := hfirst q' (List.mem_of_find?_eq_some hq') u hu
      rwa [show q'.child = v by simpa using List.find?_some hq'] at this
    · cases hu
  obtain ⟨out, m2, w1, _, _, w2⟩ := idle_back (r := { r with file := r.file.relearn count, model := m }) hF hval (Ready.printable hf hp hv m) i1 i2
    (close_columns hF hval (relearn_normalised hf c1) (Ready.printable hf hp hv m) hfirst' hcard)
  refine ⟨out, m2, by rw [write_variant fmt hv]; exact w1, fun ptr' s hr hg => ?_⟩
  obtain ⟨r2, e, ρ, k1, k2, k3, k4, k5⟩ := w2 ptr' s hr hg
  refine ⟨r2, e, ρ, k1, k2, k3, ⟨k4.different, k4.nodes, k4.sizes, k4.vars, k4.card, k4.next, fun v hv => ?_⟩, close_tables (relearn_occurs hf c1) k4 k5⟩
  rw [k4.parents v hv]
  show ((r.file.relearn count).givens v).map ρ = _
  rw [relearn_givens hf]

theorem run_right {a : Lesson K} {run : Nat} : ∀ {cs : List (Spec.Call K)} {batch : Nat} {random : Bool} {old : Ending} {left : Int} {h : NetFile K},
    IsRun a run batch random old left h cs → ∀ c ∈ cs, ∃ most, c.Right a most := by
  intro cs
  induction cs with
  | nil => intro _ _ _ _ _ h; exact h.elim
  | cons d cs ih =>
    intro batch random old left h hr c hc
    obtain ⟨h1, _, _, h4⟩ := hr
    rcases List.mem_cons.1 hc with rfl | hc
    · exact ⟨_, h1⟩
    · split at h4
      · rw [h4] at hc; cases hc
      · exact ih h4 c hc

theorem last_right {a : Lesson K} : ∀ {failed : List (List (Spec.Call K))} {good : List (Spec.Call K)} {run batch : Nat} {random : Bool} {old : Ending} {left : Int}
    {h : NetFile K}, AreRuns a run batch random old left h (failed ++ [good]) → ∀ c ∈ good, ∃ most, c.Right a most := by
  intro failed
  induction failed with
  | nil => intro good run batch random old left h hr; exact run_right hr.1
  | cons cs failed ih => intro good run batch random old left h hr; exact ih hr.2

theorem succeeds {a : Lesson K} {cs : List (Spec.Call K)} {c : Spec.Call K} {most : Int} (hc : c.Right a most) (hl : cs.getLast? = some c) (h : ¬ Fails a cs) :
    Succeeds a cs c := by
  have h1 : ¬ (c.ending = .badLuck ∨ c.mean a < a.least) := by
    intro h1
    refine h fun c' hc' => ?_
    rw [hl] at hc'
    cases hc'
    exact h1
  rw [not_or, not_lt] at h1
  exact ⟨hl, h1.1, (Right.explains hc h1.1).1, (Right.explains hc h1.1).2, h1.2⟩

/-- **C90** (partial): for good files.  What is missing: the files that are not good; with parents declared before children the numbers written are in a wrong order
(C47), and with some labels the network is not read (C68). -/
theorem C90_trained_partial {num : Numerals K} (hint : ∀ w n, num.int w = some n → n < 2147483648) {d : NetText} {net data : List Char} (h : GoodLesson num d net data) :
    TrainsRight num d net data := by
  intro g fmt shown rint rand hF hg hg1 hri hrand ptr s hr hfresh hsize
  obtain ⟨r, e, i, h1, h2, hV, hT, hD, h3, hx, hp, hfirst, hcard⟩ := opened_writable hint h.toGoodFiles h.writable ptr hr hfresh hsize
  have hcols := (cols_some h.sensible hV hD hx (header := columnNames data)).2 h.column
  refine ⟨r, e, evidenceOf (fun _ => true) ((groupsOf data).map (readGroup r.texts r.file.vars data)), h1, hD, groups_told h.toUsableFiles hV hD hx hcols, ?_⟩
  intro random threshold least most ht ht1 hleast calls
  obtain ⟨hready, hi⟩ := ready_first ptr hV hT h3
  have hcol := columns_text h.sensible hV hD hx h.columns
  have hab : ∀ ts ∈ (groupsOf data).map (readGroup r.texts r.file.vars data), About r.file ts := by
    intro ts hts
    obtain ⟨lines, _, rfl⟩ := List.mem_map.1 hts
    have := group_series (K := K) hcol lines
    have hfill : filled (readGroup r.texts r.file.vars data lines) = readGroup r.texts r.file.vars data lines := by
      unfold filled
      rw [if_neg]
      · exact hcols
    rw [hfill] at this
    exact ⟨this.1, this.2, this.3⟩
  generalize hset : (groupsOf data).map (readGroup r.texts r.file.vars data) = series at *
  have key := trainLoop_spec (a := { file := r.file, data := evidenceOf (fun _ => true) series, rand := rand, log := g.log, lowest := g.lowest, threshold := threshold, least := least, most := most.getD longMax }) hV hT (acyclic_of_first hV hfirst) hi hab rfl hg hg1 hrand hF.text (r := r) rfl hp calls
    { run := 0, batch := 0, left := most.getD longMax, random := random, criterion := .likelihood, curve := [], model := r.model, file := none } r.file hready
  obtain ⟨ts, rest, hts⟩ : ∃ ts rest, series = ts :: rest := by
    cases series with
    | nil => rw [List.map_eq_nil_iff] at hset; exact absurd hset h.lines
    | cons ts rest => exact ⟨ts, rest, rfl⟩
  have hhid : ¬ (r.file.vars.length : Int) = ts.numHidden := by
    have : ts ∈ (groupsOf data).map (readGroup r.texts r.file.vars data) := by rw [hset, hts]; simp
    obtain ⟨lines, _, rfl⟩ := List.mem_map.1 this
    show ¬ (r.file.vars.length : Int) = (r.file.vars.length : Int) - (cols r.texts r.file.vars (columnNames data)).length
    omega
  have hmain : trainMain g fmt shown rint num ptr s rand calls net data random (some threshold) (some least) most = (do
      let o ← trainLoop g fmt r i series rand threshold least (most.getD longMax) calls
        { run := 0, batch := 0, left := most.getD longMax, random := random, criterion := .likelihood, curve := [], model := r.model, file := none }
      match o with
      | none => ok none
      | some (true, st) => ok (some (-1, st.file, []))
      | some (false, st) => do
        let (out, _) ← writeModel fmt { r with model := st.model }
        ok (some (0, some out, printCurve shown rint threshold st.curve))) := by
    unfold trainMain
    rw [h2, ok_bind, hts]
    simp only [Option.getD_some]
    rw [if_neg hhid, if_neg (by push_neg; exact ⟨ht, ht1⟩), if_neg (by push_neg; exact hleast)]
    rfl
  rw [hmain]
  rcases key with ⟨k1, failed, k2, k3, k4⟩ | ⟨st', failed, good, c, k1, k2, k3, k4, k5, k6, k7⟩
  · refine ⟨none, ?_, Or.inl ⟨rfl, failed, k2, k3, ?_⟩⟩
    · have k1 : trainLoop g fmt r i series rand threshold least (most.getD longMax) calls _ = ok none := k1
      rw [k1]; rfl
    · simpa using k4
  · have k1 : trainLoop g fmt r i series rand threshold least (most.getD longMax) calls _ = ok (some (false, st')) := k1
    obtain ⟨most', hright⟩ := last_right k2 c (List.mem_of_getLast? k5)
    have hcs := succeeds hright k5 k4
    obtain ⟨out, m2, w1, w2⟩ := written_back hF hV hp hfirst hcard rfl hright.nonneg (by have := hcs.rounds; omega) k6
    refine ⟨some (0, some out, printCurve shown rint threshold st'.curve), ?_, Or.inr ⟨out, _, failed, good, c, ?_, k2, k3, hcs, w2, curve_near hri ht _⟩⟩
    · rw [k1, ok_bind]
      simp only
      rw [w1]
      rfl
    · rw [printCurve_eq, k7]
      simp

/-- **C90**, the other cases: without a line of data, without a column of a node, or with arguments that cannot be used, `niptrain` writes no file and prints nothing. -/
theorem C90_refuses {num : Numerals K} {d : NetText} {net data : List Char} (h : UsableFiles num d net data) {random : Bool} {threshold least : Option K} {most : Option Int}
    (hbad : groupsOf data = [] ∨ (∀ n ∈ d.nodes, n.name ∉ columnNames data) ∨ (∀ x, threshold = some x → x ≤ 0 ∨ 1 < x) ∨ (∀ x, least = some x → 0 ≤ x))
    (g : Logs K) (fmt shown : K → List Char) (rint : K → K) (rand : Nat → Nat → Nat → Nat → K) (ptr : Nat) {s : Session K} (hr : s.lex.readLine = true) (hg : s.g.Fresh)
    (calls : Nat) : trainMain g fmt shown rint num ptr s rand calls net data random threshold least most = ok (some (-1, none, [])) := by
  obtain ⟨r, i, h1, hV, hT, hD, h2, hx⟩ := opened h ptr hr hg
  unfold trainMain
  rw [h1, ok_bind]
  cases hq : (groupsOf data).map (readGroup r.texts r.file.vars data) with
  | nil => rfl
  | cons ts rest =>
    simp only
    by_cases h3 : (r.file.vars.length : Int) = ts.numHidden
    · rw [if_pos h3]
    · rw [if_neg h3]
      by_cases h4 : threshold.getD 0 ≤ 0 ∨ 1 < threshold.getD 0
      · rw [if_pos h4]
      · rw [if_neg h4]
        cases least with
        | none => rfl
        | some x =>
          simp only
          rcases hbad with hb | hb | hb | hb
          · rw [hb] at hq; cases hq
          · exfalso
            have : ts ∈ (groupsOf data).map (readGroup r.texts r.file.vars data) := by rw [hq]; simp
            obtain ⟨lines, _, rfl⟩ := List.mem_map.1 this
            have h0 : ¬ (cols r.texts r.file.vars (columnNames data)).length ≠ 0 := by
              rw [cols_some h.sensible hV hD hx]
              rintro ⟨n, hn, hin⟩
              exact hb n hn hin
            apply h3
            show (r.file.vars.length : Int) = (r.file.vars.length : Int) - (cols r.texts r.file.vars (columnNames data)).length
            omega
          · exfalso
            cases threshold with
            | none => exact h4 (Or.inl le_rfl)
            | some y => exact h4 (hb y rfl)
          · rw [if_pos (hb x rfl)]

/-- **C90**, a network file that is not accepted: the same. -/
theorem C90_unread {num : Numerals K} {net : List Char} {ptr : Nat} {s e : Session K} (h : parseModel num ptr s net = ok (none, e)) (g : Logs K) (fmt shown : K → List Char)
    (rint : K → K) (rand : Nat → Nat → Nat → Nat → K) (calls : Nat) (data : List Char) (random : Bool) (threshold least : Option K) (most : Option Int) :
    trainMain g fmt shown rint num ptr s rand calls net data random threshold least most = ok (some (-1, none, [])) := by
  unfold trainMain openFiles openModel
  rw [h]
  rfl

/-! ## the files of C82 -/

theorem decimal_ints : ∀ w n, decimalNum.int w = some n → n < 2147483648 := by
  intro w n h
  unfold decimalNum at h
  simp only [Option.ite_none_right_eq_some, Option.some.injEq] at h
  omega

theorem rain_lesson : GoodLesson decimalNum rain (fileText (wordLines rain.lexemes)) rainData where
  toGoodFiles := rain_good
  writable := ⟨by decide, by decide, by decide⟩
  lines := by decide +kernel
  column := by
    have h : columnNames rainData = ["Z".toList, "B".toList] := by decide +kernel
    rw [h]
    exact ⟨plainText "B", by simp [rain], by decide⟩

example : TrainsRight decimalNum rain (fileText (wordLines rain.lexemes)) rainData := C90_trained_partial decimal_ints rain_lesson

theorem round_rounds : RoundsToInt (fun a : ℚ => (round a : ℚ)) := fun a => ⟨⟨round a, rfl⟩, by rw [abs_sub_comm]; exact abs_sub_round a⟩

/-! ## labels -/

/-- **C90** is false for every description with a node without label after a node with one: memory that was freed is read. -/
theorem C90_label_refuted {num : Numerals K} {d : NetText} {net : List Char} (hd : d.Sensible num.value num.int) (hf : LaidOut d net) (hl : ¬ LabelsLast d) (g : Logs K)
    (fmt shown : K → List Char) (rint : K → K) (rand : Nat → Nat → Nat → Nat → K) (ptr : Nat) {s : Session K} (hr : s.lex.readLine = true) (hg : s.g.Fresh) (calls : Nat)
    (data : List Char) (random : Bool) (threshold least : Option K) (most : Option Int) :
    trainMain g fmt shown rint num ptr s rand calls net data random threshold least most = ub := by
  unfold trainMain openFiles openModel
  rw [C68_label_refuted hd hf hl ptr s hr hg]
  rfl

/-- two nodes, the first of which has a label -/
def labelled : NetText :=
  { frame := .net [], nodes := [{ plainText "A" with fields := .label "a".toList :: (plainText "A").fields }, plainText "B"], pots := weather.pots }

theorem labelled_sensible : labelled.Sensible decimalNum.value decimalNum.int := by
  have hval : ∀ w, (0 : ℚ) ≤ decimalNum.value w := fun w => by unfold decimalNum; positivity
  refine ⟨by decide, by decide, ?_, ?_, by decide, ?_, by decide⟩
  · intro n hn
    simp only [labelled, List.mem_cons, List.not_mem_nil, or_false] at hn
    rcases hn with rfl | rfl <;> exact ⟨by decide, by decide, fun p hp => by cases hp; decide +kernel⟩
  · intro x y h
    cases h
  · intro p hp
    simp only [labelled, weather, List.mem_cons, List.not_mem_nil, or_false] at hp
    rcases hp with rfl | rfl
    · exact ⟨by decide, by decide, by decide, fun g hg => by cases hg; exact ⟨by decide, fun w _ => hval w⟩⟩
    · exact ⟨by decide, by decide, by decide, fun g hg => by cases hg; exact ⟨by decide, fun w _ => hval w⟩⟩

theorem labelled_last : ¬ LabelsLast labelled := by unfold LabelsLast; decide

/-- **C90 in full is false**: see `C90_label_refuted`. -/
theorem C90_refuted : ¬ C90_full ℚ := by
  intro h
  have hlay := laidOut_words labelled (by decide +kernel)
  have hcol : columnNames rainData = ["Z".toList, "B".toList] := by decide +kernel
  obtain ⟨r, e, info, h1, _⟩ := h decimalNum labelled _ rainData decimal_ints labelled_sensible hlay (by decide +kernel)
    ⟨plainText "B", by simp [labelled], by rw [hcol]; decide⟩ noLogs sixDecimals sixDecimals (fun a => (round a : ℚ)) (fun _ _ _ _ => 1) decimals_formats
    (fun a b _ _ => by simp [noLogs]) (fun b _ _ => by simp [noLogs]) round_rounds (fun _ _ _ _ => zero_le_one) 8 Session.initial rfl Statics.initial_fresh ⟨by decide, by decide⟩
  rw [C68_label_refuted labelled_sensible hlay labelled_last 8 Session.initial rfl Statics.initial_fresh] at h1
  cases h1

/-! ## training that never stops -/

/-- data with both states of a node -/
def bothData : List Char := "A\nx\n\ny\n".toList

/-- the file of `certain` -/
def certainFile : List Char := fileText (wordLines certain.lexemes)

theorem certain_lesson : GoodLesson decimalNum certain certainFile bothData where
  sensible := certain_sensible
  laidOut := laidOut_words certain (by decide +kernel)
  short := by
    refine ⟨by decide, ?_, by decide⟩
    intro n hn w hw
    simp only [certain, List.mem_cons, List.not_mem_nil, or_false] at hn
    subst hn
    cases hw
  labels := by unfold LabelsLast; decide
  pots := by decide
  order := by decide
  temporal := by
    constructor
    · intro n hn w hw
      simp only [certain, List.mem_cons, List.not_mem_nil, or_false] at hn
      subst hn
      cases hw
    · intro n hn m hm w hw hw'
      simp only [certain, List.mem_cons, List.not_mem_nil, or_false] at hn
      subst hn
      cases hw
  states := by decide
  columns := by
    have h : columnNames bothData = ["A".toList] := by decide +kernel
    rw [h]
    intro n hn c c' h1 h2
    have hc : c < 1 := by by_contra hge; rw [List.getElem?_eq_none (by simp only [List.length_cons, List.length_nil]; omega)] at h1; cases h1
    have hc' : c' < 1 := by by_contra hge; rw [List.getElem?_eq_none (by simp only [List.length_cons, List.length_nil]; omega)] at h2; cases h2
    omega
  long := by
    have h : columnNames bothData = ["A".toList] := by decide +kernel
    have hg : groupsOf bothData = [["x\n".toList], ["y\n".toList]] := by decide +kernel
    rw [h, hg]
    intro lines hl line hline n hn c hc
    have hc' : c < 1 := by by_contra hge; rw [List.getElem?_eq_none (by simp only [List.length_cons, List.length_nil]; omega)] at hc; cases hc
    have : (fields ',' line).length = 1 := by
      simp only [List.mem_cons, List.not_mem_nil, or_false] at hl
      rcases hl with rfl | rfl <;> (rw [List.mem_singleton.1 hline]; decide +kernel)
    omega
  writable := ⟨by decide, by decide, by decide⟩
  lines := by decide +kernel
  column := by
    have h : columnNames bothData = ["A".toList] := by decide +kernel
    rw [h]
    exact ⟨plainText "A", by simp [certain], by decide⟩

/-- what is written and printed -/
example : trainMain noLogs sixDecimals sixDecimals (fun a => (round a : ℚ)) decimalNum 8 Session.initial (fun _ _ i j => 1 + i + j) 5 certainFile bothData true
      (some (1 / 2)) (some (-1)) (some 3) =
    ok (some (0, some ("net\n{\n    node_size = (80 60);\n}\n\nnode A\n{\n    label = \" \";\n    position = (10 20);\n    states = ( \"x\" \n               \"y\" );\n}\n\n" ++
      "potential (A)\n{\n    data = ( 0.500000  0.500000  );\n}\n").toList, "1,0.000000\n2,0.000000\n3,0.000000\n".toList)) := by
  decide +kernel

example : trainMain noLogs sixDecimals sixDecimals (fun a => (round a : ℚ)) decimalNum 8 Session.initial (fun _ _ i j => 1 + i + j) 5 certainFile bothData true
    (some 2) (some (-1)) (some 3) = ok (some (-1, none, [])) :=
  C90_refuses certain_lesson.toUsableFiles (Or.inr (Or.inr (Or.inl fun x hx => by cases hx; norm_num))) _ _ _ _ _ _ rfl Statics.initial_fresh _

example : trainMain noLogs sixDecimals sixDecimals (fun a => (round a : ℚ)) decimalNum 8 Session.initial (fun _ _ i j => 1 + i + j) 5 "net { ".toList bothData true
    (some (1 / 2)) (some (-1)) (some 3) = ok (some (-1, none, [])) := by
  have h : (match parseModel decimalNum 8 Session.initial "net { ".toList with | ok (none, _) => true | _ => false) = true := by decide +kernel
  cases hq : parseModel decimalNum 8 Session.initial "net { ".toList with
  | ub => rw [hq] at h; cases h
  | ok p =>
    obtain ⟨r, e⟩ := p
    cases r with
    | none => exact C90_unread hq _ _ _ _ _ _ _ _ _ _ _
    | some r => rw [hq] at h; cases h

theorem goodLesson_real {num : Numerals ℚ} {d : NetText} {net data : List Char} (h : GoodLesson num d net data) : GoodLesson (realNum num) d net data where
  sensible := by
    obtain ⟨h1, h2, h3, h4, h5, h6, h7⟩ := h.sensible
    refine ⟨h1, h2, h3, h4, h5, ?_, h7⟩
    intro p hp
    obtain ⟨g1, g2, g3, g4⟩ := h6 p hp
    refine ⟨g1, g2, g3, fun g hg => ⟨(g4 g hg).1, fun w hw => ?_⟩⟩
    exact Rat.cast_nonneg.2 ((g4 g hg).2 w hw)
  laidOut := h.laidOut
  short := h.short
  labels := h.labels
  pots := h.pots
  order := h.order
  temporal := h.temporal
  states := h.states
  columns := h.columns
  long := h.long
  writable := h.writable
  lines := h.lines
  column := h.column

/-- `%f` for real numbers -/
noncomputable def realDecimals (a : ℝ) : List Char := sixDecimals ((⌊a * 1000000 + 1 / 2⌋ : ℚ) / 1000000)

theorem realDecimals_value {a : ℝ} (ha : 0 ≤ a) : (realNum decimalNum).value (realDecimals a) = (⌊a * 1000000 + 1 / 2⌋ : ℝ) / 1000000 := by
  have h0 : (0 : ℤ) ≤ ⌊a * 1000000 + 1 / 2⌋ := Int.floor_nonneg.2 (by positivity)
  show ((decimalNum.value (sixDecimals _) : ℚ) : ℝ) = _
  rw [sixDecimals_value]
  have : (((⌊a * 1000000 + 1 / 2⌋ : ℚ) / 1000000) * 1000000 + 1 / 2 : ℚ).floor = ⌊a * 1000000 + 1 / 2⌋ := by
    show ⌊(((⌊a * 1000000 + 1 / 2⌋ : ℚ) / 1000000) * 1000000 + 1 / 2 : ℚ)⌋ = _
    rw [div_mul_cancel₀ _ (by norm_num), Int.floor_intCast_add]
    norm_num
  rw [this]
  push_cast
  congr 1
  exact_mod_cast congrArg (Int.cast (R := ℝ)) (Int.toNat_of_nonneg h0)

theorem realDecimals_formats : Formats (realNum decimalNum) realDecimals := by
  have hq : ∀ a : ℝ, 0 ≤ a → a ≤ 1 → (0 : ℚ) ≤ (⌊a * 1000000 + 1 / 2⌋ : ℚ) / 1000000 ∧ (⌊a * 1000000 + 1 / 2⌋ : ℚ) / 1000000 ≤ 1 := by
    intro a h0 h1
    have k0 : (0 : ℤ) ≤ ⌊a * 1000000 + 1 / 2⌋ := Int.floor_nonneg.2 (by positivity)
    have k1 : ⌊a * 1000000 + 1 / 2⌋ ≤ 1000000 := by
      have : ⌊a * 1000000 + 1 / 2⌋ < 1000001 := Int.floor_lt.2 (by push_cast; linarith)
      omega
    have k0' : (0 : ℚ) ≤ ⌊a * 1000000 + 1 / 2⌋ := by exact_mod_cast k0
    have k1' : (⌊a * 1000000 + 1 / 2⌋ : ℚ) ≤ 1000000 := by exact_mod_cast k1
    exact ⟨by positivity, by rw [div_le_one (by norm_num)]; exact k1'⟩
  refine ⟨fun a h0 h1 => decimals_formats.text _ (hq a h0 h1).1 (hq a h0 h1).2, fun a h0 h1 => ?_, fun a h0 h1 => ?_, ?_, decimals_formats.int⟩
  · rw [realDecimals_value h0]
    have l1 := Int.floor_le (a * 1000000 + 1 / 2)
    have l2 := Int.lt_floor_add_one (a * 1000000 + 1 / 2)
    rw [abs_le]
    constructor <;> linarith
  · rw [realDecimals_value h0]
    have : (0 : ℤ) ≤ ⌊a * 1000000 + 1 / 2⌋ := Int.floor_nonneg.2 (by positivity)
    have : (0 : ℝ) ≤ ⌊a * 1000000 + 1 / 2⌋ := by exact_mod_cast this
    positivity
  · rw [realDecimals_value le_rfl]
    norm_num

/-- the likelihood of a single observation of a variable without parents in a network of one variable -/
theorem one_total {f : NetFile ℝ} (hf : f.Valid) {v : Nat} (hv : f.vars = [v]) (hc : f.card v = 2) (hg : f.givens v = []) {c : Nat → List Nat → ℝ}
    (hpos : ∀ v cell, 0 < c v cell) (seen : Nat → Nat → Int) {k : Nat} (hk : k < 2) (hs : seen 0 v = k) :
    (f.relearn c).unrolledTotal seen 1 (fun _ => True) = c v [k] / (c v [0] + c v [1]) := by
  have hroot : ∀ v ∈ f.vars, f.next v ≠ none → f.givens v = [] := by
    intro u hu _
    rw [hv, List.mem_singleton] at hu
    rw [hu, hg]
  have h1 : (f.relearn c).unrolledTotal seen 1 (fun _ => True) = sumOver f.card f.vars (fun x => slice (f.relearn c) seen 0 x * 1) (fun _ => 0) := by
    have := total_succ (f.relearn c) seen 0
    exact this
  have hval : ∀ j, j < 2 → slice (f.relearn c) seen 0 (Function.update (fun _ => 0) v j) = if j = k then c v [k] / (c v [0] + c v [1]) else 0 := by
    intro j hj
    have hleg : Legal f.card f.vars (Function.update (fun _ => 0) v j) := by
      intro u hu
      rw [hv, List.mem_singleton] at hu
      rw [hu, Function.update_self, hc]
      exact hj
    rw [relearn_slice hf hroot hpos _ _ hleg]
    have hvis : visible f (seen 0) (Function.update (fun _ => 0) v j) = if j = k then (1 : ℝ) else 0 := by
      unfold visible
      rw [hv]
      simp only [List.map_cons, List.map_nil, List.prod_singleton, Function.update_self]
      unfold vision indicator
      rw [if_neg (by rw [hs]; omega), hs, hc]
      interval_cases j <;> interval_cases k <;> simp [List.range_succ]
    have hparm : parms f c 0 (Function.update (fun _ => 0) v j) = c v [j] / (c v [0] + c v [1]) := by
      unfold parms theta estimate NetFile.cell
      rw [hv]
      simp [hg, hc, Finset.sum_range_succ]
    rw [hvis, hparm]
    split
    · rename_i h; rw [h, mul_one]
    · rw [mul_zero]
  rw [h1, hv]
  unfold sumOver
  rw [hc]
  simp only [sumOver, mul_one, Finset.sum_range_succ, Finset.range_zero, Finset.sum_empty, zero_add]
  rw [hval 0 (by norm_num), hval 1 (by norm_num)]
  interval_cases k <;> simp

/-- **C90**: training need not stop.  With data that have both states of a node the mean log likelihood is never more than -0.69; if -0.5 is demanded, `niptrain` never leaves
its loop, whatever the random numbers, the threshold and the largest number of rounds. -/
theorem C90_endless_refuted (fmt shown : ℝ → List Char) (hF : Formats (realNum decimalNum) fmt) (rint : ℝ → ℝ) (hri : RoundsToInt rint) (rand : Nat → Nat → Nat → Nat → ℝ)
    (hrand : ∀ n k i j, 0 ≤ rand n k i j) (ptr : Nat) {s : Session ℝ} (hr : s.lex.readLine = true) (hg : s.g.Fresh)
    (hsize : s.g.sizeX < 2147483648 ∧ s.g.sizeY < 2147483648) (random : Bool) {threshold : ℝ} (ht : 0 < threshold) (ht1 : threshold ≤ 1) (most : Option Int) (calls : Nat) :
    trainMain naturalLogs fmt shown rint (realNum decimalNum) ptr s rand calls certainFile bothData random (some threshold) (some (-1 / 2)) most = ok none := by
  have hgood := goodLesson_real certain_lesson
  obtain ⟨r, e, info, h1, hD, hT, h2⟩ := C90_trained_partial (num := realNum decimalNum) decimal_ints hgood naturalLogs fmt shown rint rand hF naturalLogs_law naturalLogs_sane
    hri hrand ptr s hr hg hsize
  obtain ⟨result, k1, k2⟩ := h2 random threshold (-1 / 2) most ht ht1 (by norm_num) calls
  obtain ⟨r', e', g1, hV, _⟩ := C68_reads_partial hgood.sensible hgood.laidOut hgood.short hgood.pots hgood.labels ptr s hr hg
  rw [h1] at g1
  cases g1
  rcases k2 with ⟨rfl, _⟩ | ⟨text, ys, failed, good, c, _, hruns, _, hs, _⟩
  · exact k1
  · exfalso
    obtain ⟨most', hright⟩ := last_right hruns c (List.mem_of_getLast? hs.last)
    obtain ⟨count, c1, c2⟩ := net_later (a := { file := r.file, data := info, rand := rand, log := naturalLogs.log, lowest := naturalLogs.lowest, threshold := threshold,
                                                   least := -1 / 2, most := most.getD longMax }) hV hright.nonneg (by have := hs.rounds; omega)
    have henough := hs.enough
    have hexp := hs.explains
    have hvars : r.file.vars = [s.g.nextId] := hD.vars
    have hA : plainText "A" ∈ certain.nodes := by simp [certain]
    have hplace : certain.place (plainText "A").name = 0 := by decide
    have hcard : r.file.card s.g.nextId = 2 := by
      have := hD.card _ hA
      rwa [hplace] at this
    have hpar : ∀ q ∈ r.file.pots, q.parents = [] := by
      intro q hq
      obtain ⟨p, hp, hst⟩ := forall₂_right hD.pots hq
      simp only [certain, List.mem_cons, List.not_mem_nil, or_false] at hp
      subst hp
      exact hst.parents
    have hgiv : r.file.givens s.g.nextId = [] := by
      unfold NetFile.givens
      split
      · rename_i q hq
        exact hpar q (List.mem_of_find?_eq_some hq)
      · rfl
    have hgroups : groupsOf bothData = [["x\n".toList], ["y\n".toList]] := by decide +kernel
    have hcol : columnNames bothData = ["A".toList] := by decide +kernel
    rw [hgroups, hcol] at hT
    obtain ⟨s1, s2, hinfo, t1, t2⟩ : ∃ s1 s2 : Nat → Nat → Int, info = [(1, s1), (1, s2)] ∧ s1 0 s.g.nextId = (0 : ℕ) ∧ s2 0 s.g.nextId = (1 : ℕ) := by
      unfold NetText.Tells at hT
      match info, hT with
      | [(n1, s1), (n2, s2)], .cons a (.cons b .nil) =>
        obtain ⟨a1, a2⟩ := a
        obtain ⟨b1, b2⟩ := b
        have a1 : n1 = 1 := a1
        have b1 : n2 = 1 := b1
        subst a1
        subst b1
        refine ⟨s1, s2, rfl, ?_, ?_⟩
        · have := a2 0 _ rfl _ hA
          rw [hplace] at this
          exact this.trans (by decide +kernel)
        · have := b2 0 _ rfl _ hA
          rw [hplace] at this
          exact this.trans (by decide +kernel)
    have hac : r.file.Acyclic := acyclic_of_first hV fun q hq u hu => by rw [hpar q hq] at hu; cases hu
    have htemp := temporal_text hgood.sensible hD hgood.temporal
    have hroot : ∀ v ∈ r.file.vars, r.file.next v ≠ none → r.file.givens v = [] := by
      intro u hu _
      rw [hvars, List.mem_singleton] at hu
      rw [hu, hgiv]
    rw [c2] at hexp
    have hscore := score_eq hV htemp hac hroot c1 hexp
    unfold Spec.Call.mean Spec.Call.scoreAt at henough
    have hnet : c.netAt _ c.last = r.file.relearn count := c2
    rw [hnet] at henough
    have henough : -1 / 2 ≤ (r.file.relearn count).score Real.log info / (((info.map (fun e => e.1)).sum : Nat) : ℝ) := henough
    rw [hscore, hinfo] at henough
    simp only [List.map_cons, List.map_nil, List.sum_cons, List.sum_nil] at henough
    rw [one_total hV hvars hcard hgiv c1 s1 (by norm_num) t1, one_total hV hvars hcard hgiv c1 s2 (by norm_num) t2] at henough
    have p0 := c1 s.g.nextId [0]
    have p1 := c1 s.g.nextId [1]
    generalize count s.g.nextId [0] = x at *
    generalize count s.g.nextId [1] = y at *
    rw [add_zero, ← Real.log_mul (by positivity) (by positivity)] at henough
    have hle : x / (x + y) * (y / (x + y)) ≤ 1 / 4 := by
      rw [div_mul_div_comm, div_le_div_iff₀ (by positivity) (by norm_num)]
      nlinarith [sq_nonneg (x - y)]
    have hlog := Real.log_le_log (by positivity) hle
    have h4 : Real.log (1 / 4) = - (2 * Real.log 2) := by
      rw [one_div, Real.log_inv, show (4 : ℝ) = 2 ^ 2 by norm_num, Real.log_pow]
      norm_num
    have hlt : Real.log (2 : ℝ)⁻¹ < (2 : ℝ)⁻¹ - 1 := Real.log_lt_sub_one_of_pos (by norm_num) (by norm_num)
    rw [Real.log_inv] at hlt
    norm_num at henough
    linarith

example : ∃ (rint : ℝ → ℝ) (rand : Nat → Nat → Nat → Nat → ℝ), RoundsToInt rint ∧ (∀ n k i j, 0 ≤ rand n k i j) ∧ Formats (realNum decimalNum) realDecimals ∧
    ∀ calls, trainMain naturalLogs realDecimals realDecimals rint (realNum decimalNum) 8 Session.initial rand calls certainFile bothData true (some (1 / 100)) (some (-1 / 2)) none =
      ok none := by
  have hri : RoundsToInt (fun a : ℝ => (round a : ℝ)) := fun a => ⟨⟨round a, rfl⟩, by rw [abs_sub_comm]; exact abs_sub_round a⟩
  exact ⟨_, fun _ _ i j => 1 + i + j, hri, fun _ _ _ _ => by positivity, realDecimals_formats, fun calls =>
    C90_endless_refuted _ _ realDecimals_formats _ hri _ (fun _ _ _ _ => by positivity) 8 rfl Statics.initial_fresh ⟨by decide, by decide⟩ true (by norm_num) (by norm_num) none calls⟩

end Nip.Props
