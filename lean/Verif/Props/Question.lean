import Verif.QuestionLemmas

/-!
# C72: answers to questions by name, C73: unusable names, C74: evidence from an uncertain series
-/

namespace Nip

open Res Spec

set_option linter.unusedSectionVars false
set_option synthInstance.maxSize 1000

variable {K : Type} [Field K] [LinearOrder K] [IsStrictOrderedRing K]

namespace Props

/-! ## C72 -/

/-- `reset_model`, `use_priors` without history and `make_consistent` -/
def prepare (m : Model K) : Res (Model K) := do
  let m ← m.reset
  let m ← m.usePriors false
  m.makeConsistent

/-- a finding is entered -/
def tell (nodes : List NodeRec) (t : List Char × Finding K) (m : Model K) : Res (Nat × Model K) :=
  match t.2 with
  | .state w => insertHard nodes t.1 w m
  | .numbers l => insertSoft nodes t.1 l m

/-- findings are entered one after the other; the codes that are returned are kept -/
def tellAll (nodes : List NodeRec) : Findings K → Model K → Res (List Nat × Model K)
  | [], m => ok ([], m)
  | t :: ts, m => do
    let (code, m) ← tell nodes t m
    let (codes, m) ← tellAll nodes ts m
    ok (code :: codes, m)

/-- A process that has read nothing yet reads the file.  After any use of the model it is prepared.  Then findings are entered by names.  No error is reported,
and the probabilities of a variable, found by its name, are `answer`, if the findings are possible; `R` says what the numbers of the file mean. -/
def AnswersByName (num : Numerals K) (d : NetText) (R : Reading K) (file : List Char) (answer : Findings K → List Char → Nat → K) : Prop :=
  ∀ (ptr : Nat) (s : Session K), s.lex.readLine = true → s.g.Fresh →
    ∃ r e, parseModel num ptr s file = ok (some r, e) ∧ ∀ hist : List (Op K), (∀ op ∈ hist, op.Valid r.file.net) →
      ∃ m0 m1, r.model.performAll hist = ok m0 ∧ prepare m0 = ok m1 ∧
        ∀ told : Findings K, d.Sound told → d.total R told ≠ 0 →
          ∃ m2, tellAll r.nodes told m1 = ok (List.replicate told.length 0, m2) ∧
            ∀ n ∈ d.nodes, ∃ v m3, modelVariable r.nodes n.name = some v ∧
              m2.getProbability v.id = ok (some ((List.range n.states.length).map (answer told n.name)), m3)

/-- The answers are those of the joint distribution that the file describes, if its numbers are read as `R`. -/
def AnswersBy (R : Reading K) (num : Numerals K) (d : NetText) (file : List Char) : Prop :=
  AnswersByName num d R file (fun told name i => d.share R told name i / d.total R told)

/-- The answers are those of the joint distribution that the file describes. -/
def AnswersByBayes (num : Numerals K) (d : NetText) (file : List Char) : Prop := AnswersBy (d.prob num.value) num d file

variable (K) in
/-- **C72** in full: every description that makes sense. -/
def C72_full : Prop := ∀ (num : Numerals K) (d : NetText) (file : List Char), d.Sensible num.value num.int → LaidOut d file → ShortTexts d → LabelsLast d → d.pots ≠ [] →
  AnswersByBayes num d file

theorem find_recs {num : Numerals K} {name : List Char} : ∀ (ns : List NodeText) (rs : List NodeRec) (base : Nat), List.Forall₂ (SameTexts num) ns rs →
    rs.map (fun v => v.id) = List.range' base ns.length → (∃ n ∈ ns, n.name = name) →
    ∃ v, modelVariable rs name = some v ∧ v.id = base + ns.findIdx (fun n => n.name == name) ∧
      v.states = ((ns.find? (fun n => n.name == name)).map (fun n => n.states)).getD [] := by
  intro ns
  induction ns with
  | nil => intro rs base _ _ h; obtain ⟨n, hn, _⟩ := h; cases hn
  | cons n ns ih =>
    intro rs base h hid hn
    cases h with
    | cons h1 h2 =>
      rename_i r rs
      rw [List.map_cons, List.length_cons, List.range'_succ, List.cons.injEq] at hid
      by_cases hw : n.name = name
      · refine ⟨r, ?_, ?_, ?_⟩
        · unfold modelVariable
          rw [List.find?_cons_of_pos]
          rw [h1.symbol, hw]; simp
        · rw [List.findIdx_cons]; simp [hw, hid.1]
        · rw [List.find?_cons_of_pos (by simpa using hw)]; exact h1.states
      · have hn' : ∃ k ∈ ns, k.name = name := by
          obtain ⟨k, hk, he⟩ := hn
          rcases List.mem_cons.1 hk with rfl | hk
          · exact absurd he hw
          · exact ⟨k, hk, he⟩
        obtain ⟨v, v1, v2, v3⟩ := ih rs (base + 1) h2 hid.2 hn'
        refine ⟨v, ?_, ?_, ?_⟩
        · unfold modelVariable
          rw [List.find?_cons_of_neg]
          · exact v1
          · rw [h1.symbol]; simpa using fun h => hw h.symm
        · rw [List.findIdx_cons, v2]
          have : (n.name == name) = false := by simpa using hw
          rw [this]; simp only [cond_false]; omega
        · rw [List.find?_cons_of_neg (by simpa using hw)]; exact v3

/-- entering one finding -/
theorem tell_spec {num : Numerals K} {d : NetText} {base : Nat} {f : NetFile K} (hD : d.Describes num.value base f) {rs : List NodeRec}
    (hr : List.Forall₂ (SameTexts num) d.nodes rs) (hid : rs.map (fun v => v.id) = f.vars) {told : Findings K} (hs : d.Sound told) {t : List Char × Finding K} (ht : t ∈ told)
    {m : Model K} {w : World K} (h : Model.Holds f.net m w) :
    ∃ m', tell rs t m = ok (0, m') ∧ Model.Holds f.net m' (w.step f.net (findingOp d base t)) ∧ m'.tree.Agrees f.net.card (m'.tree.st f.net.card) := by
  have hnode := hs.nodes t ht
  obtain ⟨v, v1, v2, v3⟩ := find_recs d.nodes rs base hr (by rw [hid, hD.vars]) hnode
  have hv : v.id ∈ f.vars := by
    rw [v2, hD.vars, List.mem_range'_1]
    have := place_lt hnode
    unfold NetText.place at this
    omega
  have hcard : f.card v.id = d.card t.1 := by rw [v2]; exact describes_card hD hnode
  unfold tell findingOp
  cases hf : t.2 with
  | state s =>
    obtain ⟨s1, s2⟩ := hs.states t ht s hf
    simp only
    unfold insertHard
    rw [v1]
    simp only
    unfold Model.enterObservation
    have hst : v.states = d.statesOf t.1 := v3
    have hc : (m.var v.id).card = d.card t.1 := by rw [h.sound.card]; exact hcard
    rw [hc, hst, stateIndex_known (i := (d.statesOf t.1).idxOf s)]
    · simp only [ok_bind]
      obtain ⟨m1, a1, _, a3⟩ := Model.enterIndexObservation_spec h hv ((d.statesOf t.1).idxOf s : Nat)
      obtain ⟨m2, b1, _, b3, b4, _⟩ := Model.makeConsistent_spec a3
      refine ⟨m2, ?_, ?_, b4⟩
      · rw [a1]; simp only [ok_bind]; rw [b1]; rfl
      · rw [v2] at b3; exact b3
    · rw [List.length_map, statesOf_length]
    · refine List.Nodup.map ?_ s1
      intro a b hab
      exact String.ofList_injective hab
    · rw [List.getElem?_map, List.getElem?_idxOf s2]; rfl
  | numbers l =>
    obtain ⟨s1, s2⟩ := hs.numbers t ht l hf
    simp only
    unfold insertSoft
    rw [v1]
    simp only
    obtain ⟨m1, a1, _, a3⟩ := Model.enterEvidence_spec h hv (e := l) (by rw [s1]; exact hcard.symm) s2
    obtain ⟨m2, b1, _, b3, b4, _⟩ := Model.makeConsistent_spec a3
    refine ⟨m2, ?_, ?_, b4⟩
    · rw [a1]; simp only [ok_bind]; rw [b1]; rfl
    · rw [v2] at b3; exact b3

theorem tellAll_spec {num : Numerals K} {d : NetText} {base : Nat} {f : NetFile K} (hD : d.Describes num.value base f) {rs : List NodeRec}
    (hr : List.Forall₂ (SameTexts num) d.nodes rs) (hid : rs.map (fun v => v.id) = f.vars) {all : Findings K} (hs : d.Sound all) :
    ∀ (told : Findings K), (∀ t ∈ told, t ∈ all) → ∀ {m : Model K} {w : World K}, Model.Holds f.net m w → m.tree.Agrees f.net.card (m.tree.st f.net.card) →
    ∃ m', tellAll rs told m = ok (List.replicate told.length 0, m') ∧ Model.Holds f.net m' (w.after f.net (told.map (findingOp d base))) ∧
      m'.tree.Agrees f.net.card (m'.tree.st f.net.card) := by
  intro told
  induction told with
  | nil => intro _ m w h ha; exact ⟨m, rfl, h, ha⟩
  | cons t told ih =>
    intro hsub m w h ha
    obtain ⟨m1, a1, a2, a3⟩ := tell_spec hD hr hid hs (hsub t (by simp)) h
    obtain ⟨m2, b1, b2, b3⟩ := ih (fun u hu => hsub u (by simp [hu])) a2 a3
    refine ⟨m2, ?_, b2, b3⟩
    unfold tellAll
    rw [a1]
    simp only [ok_bind]
    rw [b1]
    rfl

/-- questions by name, for any meaning of the numbers with which the tables agree -/
theorem answers_read {num : Numerals K} {d : NetText} {file : List Char} {R : Reading K} (hc : AlwaysReads num d R) (hd : d.Sensible num.value num.int) (hf : LaidOut d file)
    (hs : ShortTexts d) (hl : LabelsLast d) (hp : d.pots ≠ []) : AnswersBy R num d file := by
  intro ptr s hr hg
  obtain ⟨r, e, h1, hV, hD, hb, hid, htx, _⟩ := C68_reads_partial hd hf hs hp hl ptr s hr hg
  refine ⟨r, e, h1, fun hist hh => ?_⟩
  obtain ⟨m, hb', hm, _⟩ := build_spec ptr hV
  rw [hb] at hb'
  cases hb'
  obtain ⟨m0, a1, _, a3⟩ := Model.performAll_spec hist hm hh
  obtain ⟨m1, b1, _, b3⟩ := Model.perform_spec a3 (op := .reset) trivial
  obtain ⟨m2, c1, _, c3⟩ := Model.perform_spec b3 (op := .priors false) trivial
  obtain ⟨m3, e1, _, e3, e4, _⟩ := Model.makeConsistent_spec c3
  refine ⟨m0, m3, a1, ?_, fun told hs ht => ?_⟩
  · unfold prepare
    have b1' : m0.reset = ok m1 := b1
    have c1' : m1.usePriors false = ok m2 := c1
    rw [b1', ok_bind, c1', ok_bind, e1]
  · obtain ⟨m4, f1, f2, f3⟩ := tellAll_spec hD htx hid hs told (fun _ h => h) e3 e4
    refine ⟨m4, f1, fun n hn => ?_⟩
    have hnode : ∃ k ∈ d.nodes, k.name = n.name := ⟨n, hn, rfl⟩
    obtain ⟨v, v1, v2, v3⟩ := find_recs d.nodes r.nodes s.g.nextId htx (by rw [hid, hD.vars]) hnode
    have v2' : v.id = s.g.nextId + d.place n.name := v2
    have hv : v.id ∈ r.file.vars := by
      rw [v2', hD.vars, List.mem_range'_1]
      have := place_lt hnode
      omega
    have hcard : r.file.net.card v.id = n.states.length := by rw [v2']; exact hD.card n hn
    have hcd : d.card n.name = n.states.length := by rw [← describes_card hD hnode]; exact hD.card n hn
    have hstates : 0 < n.states.length := by
      have := hV.states _ hv
      rw [← hcard]; exact this
    obtain ⟨p, m5, q1, q2, _, q4, _⟩ := getProbability_bayes (net_local hV) f2 f3 (v := v.id) hv
    have hW : ((World.step r.file.net (World.fresh r.file.net) (.priors false)).after r.file.net (told.map (findingOp d s.g.nextId))) = worldOf d s.g.nextId r.file told := rfl
    have hns := answer_eq hd hV hD (hc _ _ hV hD) hs ht hnode (i := 0) (by rw [hcd]; exact hstates)
    refine ⟨v, m5, v1, ?_⟩
    rw [q1]
    have : p = (List.range n.states.length).map (fun i => d.share R told n.name i / d.total R told) := by
      refine List.ext_getElem? fun i => ?_
      by_cases hi : i < n.states.length
      · rw [(q4 hns.1).2 i (by rw [hcard]; exact hi), List.getElem?_map, List.getElem?_range hi]
        simp only [Option.map_some, Option.some.injEq]
        have := (answer_eq hd hV hD (hc _ _ hV hD) hs ht hnode (i := i) (by rw [hcd]; exact hi)).2
        rw [v2']
        exact this
      · rw [List.getElem?_eq_none (by rw [q2, hcard]; omega), List.getElem?_eq_none (by simpa using hi)]
    rw [this]

/-- **C72** (partial).  What is missing from `C72_full`, which is false: files with a child declared after one of its parents (C47). -/
theorem C72_names_partial {num : Numerals K} {d : NetText} {file : List Char} (hd : d.Sensible num.value num.int) (hf : LaidOut d file)
    (hs : ShortTexts d) (hl : LabelsLast d) (hp : d.pots ≠ []) (hc : ∀ p ∈ d.pots, ∀ w ∈ p.parents.getD [], d.place p.child < d.place w) :
    AnswersByBayes num d file := answers_read (always_prob hd hc) hd hf hs hl hp

/-! ### the numbers written in the file -/

theorem choices_mem : ∀ (ns c : List Nat), c ∈ choices ns → c.length = ns.length ∧ ∀ (i : Nat) (h : i < ns.length), c.getD i 0 < ns[i] := by
  intro ns
  induction ns with
  | nil => intro c h; simp only [choices, List.mem_singleton] at h; subst h; exact ⟨rfl, fun i h => absurd h (Nat.not_lt_zero _)⟩
  | cons n ns ih =>
    intro c h
    unfold choices at h
    obtain ⟨i, hi, h⟩ := List.mem_flatMap.1 h
    obtain ⟨c', hc', rfl⟩ := List.mem_map.1 h
    obtain ⟨h1, h2⟩ := ih c' hc'
    refine ⟨by simp [h1], fun j hj => ?_⟩
    cases j with
    | zero => simpa using hi
    | succ j => simpa using h2 j (by simpa using hj)

theorem stateIn_lt {d : NetText} {c : List Nat} (hc : c ∈ d.combinations) {w : List Char} (hw : ∃ n ∈ d.nodes, n.name = w) : d.stateIn c w < d.card w := by
  have := (choices_mem _ c hc).2 (d.place w) (by simpa using place_lt hw)
  rw [card_place hw]
  simpa [NetText.stateIn] using this

theorem foldl_lt {d : NetText} {c : List Nat} : ∀ (l : List (List Char)) (a : Nat), (∀ w ∈ l, d.stateIn c w < d.card w) →
    ∀ b, a < b → l.foldl (fun a w => a * d.card w + d.stateIn c w) a < b * (l.map d.card).prod := by
  intro l
  induction l with
  | nil => intro a _ b h; simpa using h
  | cons w l ih =>
    intro a hl b hab
    rw [List.foldl_cons, List.map_cons, List.prod_cons, ← mul_assoc]
    refine ih _ (fun u hu => hl u (by simp [hu])) _ ?_
    have h1 := hl w (by simp)
    calc a * d.card w + d.stateIn c w < a * d.card w + d.card w := by omega
      _ = (a + 1) * d.card w := by ring
      _ ≤ b * d.card w := Nat.mul_le_mul_right _ hab

/-- numbers that make distributions are the probabilities -/
theorem prob_number {value : List Char → K} {int : List Char → Option Nat} {d : NetText} (hd : d.Sensible value int) (hD : Distributions value d) {c : List Nat} (hc : c ∈ d.combinations) {p : PotText} (hp : p ∈ d.pots) :
    p.prob d value c = p.number d value c := by
  obtain ⟨g, hg, hsum⟩ := hD p hp
  have hnames := (hd.pots p hp).names
  have hchild : ∃ n ∈ d.nodes, n.name = p.child := hnames p.child (by simp)
  have hlen : c.length = d.nodes.length := by simpa using (choices_mem _ c hc).1
  have hdist := (hd.pots p hp).distinct
  have hfold : ∀ i, (p.parents.getD []).foldl (fun a w => a * d.card w + d.stateIn (d.change c p.child i) w) 0 =
      (p.parents.getD []).foldl (fun a w => a * d.card w + d.stateIn c w) 0 := by
    intro i
    refine List.foldl_ext _ _ _ fun a w hw => ?_
    congr 1
    unfold NetText.stateIn NetText.change
    have hne : d.place p.child ≠ d.place w := by
      intro h
      have := describes_inj (base := 0) hchild (hnames w (by simp [hw])) (by omega)
      exact (List.nodup_cons.1 hdist).1 (this ▸ hw)
    simp [List.getD_eq_getElem?_getD, List.getElem?_set_ne hne]
  have hone : ((List.range (d.card p.child)).map (fun i => p.number d value (d.change c p.child i))).sum = 1 := by
    rw [← hsum ((p.parents.getD []).foldl (fun a w => a * d.card w + d.stateIn c w) 0) ?_]
    · rw [← sum_range_list]
      congr 1
      refine List.map_congr_left fun i _ => ?_
      unfold PotText.number PotText.placeIn
      rw [hg]
      simp only
      rw [List.foldl_append, hfold i]
      simp only [List.foldl_cons, List.foldl_nil]
      congr 3
      unfold NetText.stateIn NetText.change
      rw [List.getD_eq_getElem?_getD, List.getElem?_set_self (by rw [hlen]; exact place_lt hchild)]
      rfl
    · have := foldl_lt (d := d) (c := c) (p.parents.getD []) 0 (fun w hw => stateIn_lt hc (hnames w (by simp [hw]))) 1 Nat.zero_lt_one
      simpa using this
  unfold PotText.prob
  rw [hone, div_one]

/-- **C72** for files whose numbers make distributions: the answer is the sum of the products of the numbers written over the combinations with the state asked
for, divided by the sum over all.  What is missing: the same as for `C72_names_partial`, and files with other numbers. -/
theorem C72_numbers_partial {num : Numerals K} {d : NetText} {file : List Char} (hd : d.Sensible num.value num.int) (hf : LaidOut d file)
    (hs : ShortTexts d) (hl : LabelsLast d) (hp : d.pots ≠ []) (hc : ∀ p ∈ d.pots, ∀ w ∈ p.parents.getD [], d.place p.child < d.place w)
    (hD : Distributions num.value d) :
    AnswersByName num d (d.prob num.value) file (fun told name i => ((d.combinations.filter (fun c => d.stateIn c name == i)).map (d.product num.value told)).sum /
      (d.combinations.map (d.product num.value told)).sum) := by
  have hw : ∀ told : Findings K, ∀ c ∈ d.combinations, d.product num.value told c = d.weight (d.prob num.value) told c := by
    intro told c hc
    unfold NetText.product NetText.weight
    congr 2
    exact List.map_congr_left fun p hp => (prob_number hd hD hc hp).symm
  have h1 : ∀ told : Findings K, (d.combinations.map (d.product num.value told)).sum = d.total (d.prob num.value) told := by
    intro told
    unfold NetText.total
    rw [List.map_congr_left (hw told)]
  have h2 : ∀ (told : Findings K) name i, ((d.combinations.filter (fun c => d.stateIn c name == i)).map (d.product num.value told)).sum = d.share (d.prob num.value) told name i := by
    intro told name i
    unfold NetText.share
    rw [List.map_congr_left fun c hc => hw told c (List.mem_filter.1 hc).1]
  simp only [h1, h2]
  exact C72_names_partial hd hf hs hl hp hc

/-- numbers for the states of `A`, and `B` has been seen in state `y` -/
def clouds : Findings ℚ := [("A".toList, .numbers [2, 1]), ("B".toList, .state "y".toList)]

theorem clouds_sound : weather.Sound clouds where
  nodes := by decide
  distinct := by decide
  states := by
    intro t ht w hw
    simp only [clouds, List.mem_cons, List.not_mem_nil, or_false] at ht
    rcases ht with rfl | rfl <;> cases hw
    decide
  numbers := by
    intro t ht l hl
    simp only [clouds, List.mem_cons, List.not_mem_nil, or_false] at ht
    rcases ht with rfl | rfl <;> cases hl
    decide +kernel

/-- The hypotheses of `C72_numbers_partial` are met, and the findings have a positive weight: the probabilities of `A` are 2/3 and 1/3. -/
example : LaidOut weather (fileText (wordLines weather.lexemes)) ∧ weather.total (weather.prob decimalNum.value) clouds = 3 / 20 ∧ weather.share (weather.prob decimalNum.value) clouds "A".toList 0 = 1 / 10 ∧
    AnswersByBayes decimalNum weather (fileText (wordLines weather.lexemes)) := by
  have hlay := laidOut_words weather (by decide +kernel)
  refine ⟨hlay, by decide +kernel, by decide +kernel, C72_names_partial weather_sensible hlay ⟨by decide, ?_, by decide⟩ (by unfold LabelsLast; decide) (by decide) (by decide)⟩
  intro n hn w hw
  simp only [weather, List.mem_cons, List.not_mem_nil, or_false] at hn
  rcases hn with rfl | rfl <;> cases hw

/-- the same network, but the parent is declared before the child -/
def lateWeather : NetText := { weather with nodes := [plainText "B", plainText "A"] }

theorem lateWeather_sensible : lateWeather.Sensible decimalNum.value decimalNum.int := by
  have hval : ∀ w, (0 : ℚ) ≤ decimalNum.value w := fun w => by unfold decimalNum; positivity
  refine ⟨by decide, by decide, ?_, ?_, by decide, ?_, by decide⟩
  · intro n hn
    simp only [lateWeather, List.mem_cons, List.not_mem_nil, or_false] at hn
    rcases hn with rfl | rfl <;> exact ⟨by decide, by decide, fun p hp => by cases hp; decide +kernel⟩
  · intro x y h
    simp only [lateWeather, weather, Frame.fields, List.mem_cons, List.not_mem_nil, or_false, reduceCtorEq, NetField.size.injEq] at h
    obtain ⟨rfl, rfl⟩ := h
    decide +kernel
  · intro p hp
    simp only [lateWeather, weather, List.mem_cons, List.not_mem_nil, or_false] at hp
    rcases hp with rfl | rfl
    · exact ⟨by decide, by decide, by decide, fun g hg => by cases hg; exact ⟨by decide, fun w _ => hval w⟩⟩
    · exact ⟨by decide, by decide, by decide, fun g hg => by cases hg; exact ⟨by decide, fun w _ => hval w⟩⟩

/-- the file is read, and the probabilities of a variable are asked for -/
def askFirst (file name : List Char) : Res (Option (List ℚ)) := do
  let (r, _) ← parseModel decimalNum 8 Session.initial file
  match r with
  | none => ub
  | some r => do
    let m ← prepare r.model
    match modelVariable r.nodes name with
    | none => ub
    | some v => do
      let (p, _) ← m.getProbability v.id
      ok p

/-- **C72** is false: with the parent declared first, the probability of state `x` of `B` is 63/71 instead of 9/10. -/
theorem C72_refuted : ¬ C72_full ℚ := by
  intro h
  have hlay := laidOut_words lateWeather (by decide +kernel)
  have hlab : ∀ n ∈ lateWeather.nodes, ∀ w, n.label = some w → w.length ≤ 40 := by
    intro n hn w hw
    simp only [lateWeather, List.mem_cons, List.not_mem_nil, or_false] at hn
    rcases hn with rfl | rfl <;> cases hw
  obtain ⟨r, e, h1, h2⟩ := h decimalNum lateWeather _ lateWeather_sensible hlay ⟨by decide, hlab, by decide⟩ (by unfold LabelsLast; decide) (by decide) 8 Session.initial rfl Statics.initial_fresh
  obtain ⟨m0, m1, k1, k2, k3⟩ := h2 [] (by simp)
  have k0 : m0 = r.model := by
    have : (ok r.model : Res (Model ℚ)) = ok m0 := k1
    cases this
    rfl
  subst k0
  have ht : lateWeather.total (lateWeather.prob decimalNum.value) [] = 1 := by decide +kernel
  obtain ⟨m2, j1, j2⟩ := k3 [] ⟨by simp, by simp, by simp, by simp⟩ (by rw [ht]; norm_num)
  have j1' : (ok ([], m1) : Res (List Nat × Model ℚ)) = ok ([], m2) := j1
  cases j1'
  obtain ⟨v, m3, i1, i2⟩ := j2 (plainText "B") (by simp [lateWeather])
  have hx : askFirst (fileText (wordLines lateWeather.lexemes)) "B".toList = ok (some [63 / 71, 8 / 71]) := by decide +kernel
  unfold askFirst at hx
  rw [h1] at hx
  simp only [ok_bind] at hx
  rw [k2, ok_bind] at hx
  have i1' : modelVariable r.nodes "B".toList = some v := i1
  rw [i1'] at hx
  simp only at hx
  rw [i2] at hx
  simp only [ok_bind] at hx
  revert hx
  decide +kernel

/-! ## C73 -/

/-- Whatever the two models are told, after inference they give the same answers. -/
def SameAnswers (net : Net K) (m m' : Model K) : Prop :=
  ∀ ops : List (Op K), (∀ op ∈ ops, op.Valid net) → ∀ v ∈ net.vars, ∃ p a b,
    ((m.performAll ops).bind Model.makeConsistent).bind (fun m => m.getProbability v) = ok (some p, a) ∧
      ((m'.performAll ops).bind Model.makeConsistent).bind (fun m => m.getProbability v) = ok (some p, b)

/-- The records belong to the variables of the file, with a name for each state. -/
structure Records (f : NetFile K) (nodes : List NodeRec) : Prop where
  ids : nodes.map (fun n => n.id) = f.vars
  states : ∀ n ∈ nodes, n.states.length = f.card n.id

/-- A call that reports an error and changes nothing. -/
def Refused (net : Net K) (m : Model K) (call : Model K → Res (Nat × Model K)) : Prop := ∃ code m', call m = ok (code, m') ∧ code ≠ 0 ∧ SameAnswers net m m'

variable (K) in
/-- **C73** in full: for a model that is made from a file and used in any way. -/
def C73_full : Prop := ∀ (ptr : Nat) (f : NetFile K) (nodes : List NodeRec) (hist : List (Op K)) (m : Model K), f.Valid → Records f nodes → (∀ op ∈ hist, op.Valid f.net) →
  NetFile.runFile ptr f hist = ok m → ∀ varname : List Char,
    ((∀ n ∈ nodes, n.symbol ≠ varname) → (∀ w, Refused f.net m (insertHard nodes varname w)) ∧ ∀ l, Refused f.net m (insertSoft nodes varname l)) ∧
      ∀ w, (∀ n ∈ nodes, n.symbol = varname → w ∉ n.states) → Refused f.net m (insertHard nodes varname w)

theorem sameAnswers_of {net : Net K} {m m' : Model K} {w : World K} (h : Model.Holds net m w) (h' : Model.Holds net m' w) : SameAnswers net m m' := by
  intro ops ho v hv
  obtain ⟨m1, a1, _, a3⟩ := Model.performAll_spec ops h ho
  obtain ⟨m2, b1, _, b3, b4, _⟩ := Model.makeConsistent_spec a3
  obtain ⟨c, r, c1, _, _, c4⟩ := Model.getProbability_run b3 hv
  obtain ⟨m1', a1', _, a3'⟩ := Model.performAll_spec ops h' ho
  obtain ⟨m2', b1', _, b3', b4', _⟩ := Model.makeConsistent_spec a3'
  obtain ⟨c', r', c1', _, _, c4'⟩ := Model.getProbability_run b3' hv
  refine ⟨r, m2.memo v c, m2'.memo v c', ?_, ?_⟩
  · rw [a1]
    show (m1.makeConsistent).bind _ = _
    rw [b1]
    exact c1
  · rw [a1']
    show (m1'.makeConsistent).bind _ = _
    rw [b1', c4 b4, ← c4' b4']
    exact c1'

theorem unknown_variable {nodes : List NodeRec} {varname : List Char} (h : ∀ n ∈ nodes, n.symbol ≠ varname) : modelVariable nodes varname = none := by
  unfold modelVariable
  rw [List.find?_eq_none]
  intro n hn
  simpa using fun h' => h n hn h'.symm

/-- **C73** for variables the model does not have (partial): both calls return an error and leave the model as it is.  What is missing from `C73_full`, which
is false: unknown states. -/
theorem C73_variable_partial (ptr : Nat) {f : NetFile K} (hf : f.Valid) {nodes : List NodeRec} {hist : List (Op K)} (hh : ∀ op ∈ hist, op.Valid f.net)
    {m : Model K} (hm : NetFile.runFile ptr f hist = ok m) {varname : List Char} (h : ∀ n ∈ nodes, n.symbol ≠ varname) :
    (∀ w, Refused f.net m (insertHard nodes varname w)) ∧ ∀ l, Refused f.net m (insertSoft nodes varname l) := by
  obtain ⟨m', h1, h2⟩ := runFile_spec ptr hf hh
  rw [hm] at h1
  cases h1
  have hu := unknown_variable h
  refine ⟨fun w => ⟨EINVAL, m, ?_, by decide, sameAnswers_of h2.1 h2.1⟩, fun l => ⟨EINVAL, m, ?_, by decide, sameAnswers_of h2.1 h2.1⟩⟩
  · unfold insertHard; rw [hu]
  · unfold insertSoft; rw [hu]

/-- **C73** for states the variable does not have (partial): nothing changes.  What is missing from `C73_full`: the code is 0, which means success. -/
theorem C73_state_partial (ptr : Nat) {f : NetFile K} (hf : f.Valid) {nodes : List NodeRec} (hr : Records f nodes) {hist : List (Op K)} (hh : ∀ op ∈ hist, op.Valid f.net)
    {m : Model K} (hm : NetFile.runFile ptr f hist = ok m) {varname : List Char} (hv : ∃ n ∈ nodes, n.symbol = varname) {w : List Char}
    (h : ∀ n ∈ nodes, n.symbol = varname → w ∉ n.states) : ∃ m', insertHard nodes varname w m = ok (0, m') ∧ SameAnswers f.net m m' := by
  obtain ⟨m', h1, h2⟩ := runFile_spec ptr hf hh
  rw [hm] at h1
  cases h1
  obtain ⟨v, v1⟩ : ∃ v, modelVariable nodes varname = some v := by
    unfold modelVariable
    obtain ⟨n, hn, he⟩ := hv
    exact Option.isSome_iff_exists.1 (List.find?_isSome.2 ⟨n, hn, by simpa using he.symm⟩)
  have hmem := List.mem_of_find?_eq_some v1
  have hsym : v.symbol = varname := by
    have := List.find?_some v1
    simpa using (beq_iff_eq.1 this).symm
  obtain ⟨m2, b1, _, b3, _⟩ := Model.makeConsistent_spec h2.1
  refine ⟨m2, ?_, sameAnswers_of h2.1 b3⟩
  unfold insertHard
  rw [v1]
  simp only
  rw [C39_unknown_name m v.id]
  · simp only [ok_bind]
    rw [b1]
    rfl
  · intro l hl
    cases hl
    rw [List.length_map, hr.states v hmem]
    exact (h2.1.sound.card v.id).symm
  · intro l hl
    cases hl
    intro hmem'
    obtain ⟨u, hu, he⟩ := List.mem_map.1 hmem'
    have := String.ofList_injective he
    subst this
    exact h v hmem hsym hu

theorem early_records : Records early [twoStates 1 "A" "x" "y", twoStates 2 "B" "x" "y"] := ⟨rfl, by decide⟩

/-- **C73** is false: an unknown state is reported as success. -/
theorem C73_refuted : ¬ C73_full ℚ := by
  intro h
  obtain ⟨m, hm, _⟩ := runFile_spec 8 early_valid (ops := []) (by simp)
  obtain ⟨code, m1, h1, h2, _⟩ := (h 8 early _ [] m early_valid early_records (by simp) hm "A".toList).2 "z".toList (by decide)
  obtain ⟨m2, g1, _⟩ := C73_state_partial 8 early_valid early_records (hist := []) (by simp) hm (varname := "A".toList) (by decide) (w := "z".toList) (by decide)
  rw [h1] at g1
  cases g1
  exact h2 rfl

/-- The hypotheses of the partial theorems are met, after an observation. -/
example : ∃ m, NetFile.runFile 8 early [.observe 2 1] = ok m ∧ Refused early.net m (insertHard [twoStates 1 "A" "x" "y", twoStates 2 "B" "x" "y"] "C".toList "x".toList) ∧
    ∃ m', insertHard [twoStates 1 "A" "x" "y", twoStates 2 "B" "x" "y"] "B".toList "z".toList m = ok (0, m') ∧ SameAnswers early.net m m' := by
  have hh : ∀ op ∈ ([.observe 2 1] : List (Op ℚ)), op.Valid early.net := by
    intro op ho
    rw [List.mem_singleton.1 ho]
    show 2 ∈ early.vars
    decide
  obtain ⟨m, hm, _⟩ := runFile_spec 8 early_valid hh
  exact ⟨m, hm, (C73_variable_partial 8 early_valid hh hm (by decide)).1 _, C73_state_partial 8 early_valid early_records hh hm (by decide) (by decide)⟩

/-! ## C74 -/

/-- The series fits the network: variables of the network, for each time step and each variable a non-negative number for each state. -/
structure FitsNet (net : Net K) (u : UncertainSeries K) : Prop where
  vars : ∀ v ∈ u.vars, v ∈ net.vars
  length : u.data.length = u.length
  rows : ∀ row ∈ u.data, List.Forall₂ (fun v e => e.length = net.card v ∧ ∀ a ∈ e, 0 ≤ a) u.vars row

/-- evidence about each marked variable: the numbers of a time step -/
def stepEvidence (marked : Nat → Bool) (u : UncertainSeries K) (t : Nat) : List (Op K) :=
  ((u.vars.zip (u.data.getD t [])).filter (fun a => marked a.1)).map (fun a => .evidence a.1 a.2)

theorem ucsLoop_spec {net : Net K} (marked : Nat → Bool) (row : List (List K)) (get : Nat → Res (List K)) (hget : ∀ i (h : i < row.length), get i = ok row[i]) :
    ∀ (vs : List Nat) (i : Nat), List.Forall₂ (fun v e => v ∈ net.vars ∧ e.length = net.card v ∧ ∀ a ∈ e, 0 ≤ a) vs (row.drop i) →
      ∀ {m : Model K} {w : World K}, Model.Holds net m w →
      ∃ m', m.performAll (((vs.zip (row.drop i)).filter (fun a => marked a.1)).map (fun a => .evidence a.1 a.2)) = ok m' ∧ insertUcsLoop marked get vs i m = ok (0, m') := by
  intro vs
  induction vs with
  | nil => intro i _ m w _; exact ⟨m, rfl, rfl⟩
  | cons v vs ih =>
    intro i h m w hm
    obtain ⟨e, es, hes⟩ : ∃ e es, row.drop i = e :: es := by
      cases h' : row.drop i with
      | nil => rw [h'] at h; cases h
      | cons e es => exact ⟨e, es, rfl⟩
    have hi : i < row.length := by
      by_contra hn
      rw [List.drop_eq_nil_of_le (by omega)] at hes
      cases hes
    rw [List.drop_eq_getElem_cons hi] at hes
    obtain ⟨he, hes⟩ := List.cons.inj hes
    rw [List.drop_eq_getElem_cons hi] at h ⊢
    cases h with
    | cons h1 h2 =>
      unfold insertUcsLoop
      by_cases hv : marked v = true
      · obtain ⟨m1, a1, _, a3⟩ := Model.enterEvidence_spec hm h1.1 h1.2.1 h1.2.2
        obtain ⟨m2, b1, b2⟩ := ih (i + 1) h2 a3
        refine ⟨m2, ?_, ?_⟩
        · rw [List.zip_cons_cons, List.filter_cons_of_pos (by simpa using hv), List.map_cons]
          unfold Model.performAll at b1 ⊢
          rw [List.foldlM_cons]
          unfold Model.perform
          simp only
          rw [a1]
          simp only [ok_bind]
          exact b1
        · rw [if_pos hv, hget i hi, ok_bind, a1]
          simp only [ok_bind, ne_eq, not_true, if_false]
          exact b2
      · obtain ⟨m2, b1, b2⟩ := ih (i + 1) h2 hm
        refine ⟨m2, ?_, ?_⟩
        · rw [List.zip_cons_cons, List.filter_cons_of_neg (by simpa using hv)]
          exact b1
        · rw [if_neg hv]
          exact b2

/-- **C74**: for a model that is made from a file and used in any way, a step of the series has the effect of evidence about the marked variables; a step that
does not exist is refused. -/
theorem C74_step (ptr : Nat) {f : NetFile K} (hf : f.Valid) {hist : List (Op K)} (hh : ∀ op ∈ hist, op.Valid f.net) {m : Model K} (hm : NetFile.runFile ptr f hist = ok m)
    {u : UncertainSeries K} (hu : FitsNet f.net u) (marked : Nat → Bool) (t : Int) :
    (0 ≤ t ∧ t < u.length → ∃ m', m.performAll (stepEvidence marked u t.toNat) = ok m' ∧ insertUcsStep marked u t m = ok (0, m')) ∧
      (t < 0 ∨ u.length ≤ t → ∃ code, code ≠ 0 ∧ insertUcsStep marked u t m = ok (code, m)) := by
  obtain ⟨m', h1, h2, _⟩ := runFile_spec ptr hf hh
  rw [hm] at h1
  cases h1
  constructor
  · intro ⟨t1, t2⟩
    have ht : t.toNat < u.data.length := by rw [hu.length]; omega
    have hrow := hu.rows _ (List.getElem_mem ht)
    have hforall : List.Forall₂ (fun v e => v ∈ f.net.vars ∧ e.length = f.net.card v ∧ ∀ a ∈ e, 0 ≤ a) u.vars ((u.data[t.toNat]).drop 0) := by
      rw [List.drop_zero]
      rw [List.forall₂_iff_get] at hrow ⊢
      exact ⟨hrow.1, fun i hi hj => ⟨hu.vars _ (List.get_mem _ _), hrow.2 i hi hj⟩⟩
    obtain ⟨m2, b1, b2⟩ := ucsLoop_spec marked u.data[t.toNat] (fun i => do let row ← rd u.data t.toNat; rd row i)
      (fun i h => by simp only [rd_lt ht, ok_bind]; exact rd_lt h) u.vars 0 hforall h2
    refine ⟨m2, ?_, ?_⟩
    · unfold stepEvidence
      rw [List.getD_eq_getElem?_getD, List.getElem?_eq_getElem ht]
      rw [List.drop_zero] at b1
      exact b1
    · unfold insertUcsStep
      rw [if_neg (by omega)]
      exact b2
  · intro ht
    refine ⟨EINVAL, by decide, ?_⟩
    unfold insertUcsStep
    rw [if_pos ht]

/-- The hypotheses of `C74_step` are met: two variables, one of them marked, two steps. -/
example : ∃ m m', NetFile.runFile 8 early [] = ok m ∧ m.performAll [.evidence 2 [1 / 4, 3 / 4]] = ok m' ∧
    insertUcsStep (fun v => v == 2) ⟨[1, 2], 2, [[[1, 0], [1, 1]], [[1 / 2, 1 / 3], [1 / 4, 3 / 4]]]⟩ 1 m = ok (0, m') := by
  obtain ⟨m, hm, _⟩ := runFile_spec 8 early_valid (ops := []) (by simp)
  have hfit : FitsNet early.net ⟨[1, 2], 2, [[[1, 0], [1, 1]], [[1 / 2, 1 / 3], [1 / 4, 3 / 4]]]⟩ := by
    refine ⟨by decide, rfl, ?_⟩
    show ∀ row ∈ [[[1, 0], [1, 1]], [[1 / 2, 1 / 3], [1 / 4, 3 / 4]]], List.Forall₂ (fun v (e : List ℚ) => e.length = early.card v ∧ ∀ a ∈ e, 0 ≤ a) [1, 2] row
    decide +kernel
  obtain ⟨m', h1, h2⟩ := (C74_step 8 early_valid (hist := []) (by simp) hm hfit (fun v => v == 2) 1).1 (by decide)
  exact ⟨m, m', hm, h1, h2⟩

end Props

end Nip
