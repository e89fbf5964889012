import Verif.Props.Benchmark
import Verif.Props.JointText

/-!
# C95: the programs for network files with nodes in any order

What C72, C82, C83, C84, C91 and C92 say about files that declare children before their parents is said here about all files.  The only difference is in the meaning of the
numbers of the potentials: `NetText.byFirst` instead of `NetText.prob`, both in `Verif/Spec/Question.lean`.  (C93 and C94 are proved for any order in their own files.)
-/

namespace Nip.Props

open Nip Res Spec

set_option linter.unusedSectionVars false
set_option synthInstance.maxSize 1000

variable {K : Type} [Field K] [LinearOrder K] [IsStrictOrderedRing K]

/-- **C95**: if the child of a potential is declared before its parents, the numbers are read as conditional probabilities of the child. -/
theorem C95_child_first {num : Numerals K} {d : NetText} (hd : d.Sensible num.value num.int) {p : PotText} (hp : p ∈ d.pots)
    (hc : ∀ w ∈ p.parents.getD [], d.place p.child < d.place w) (c : List Nat) : d.byFirst num.value p c = d.prob num.value p c := by
  have : p.firstDeclared d = p.child := by
    obtain ⟨h1, h2⟩ := firstDeclared_spec hd hp
    rcases List.mem_cons.1 h1 with h | h
    · exact h
    · have := hc _ h
      have := h2 p.child (by simp)
      omega
  unfold NetText.byFirst NetText.prob PotText.prob
  rw [this]

/-- **C95**, questions by name: for the descriptions of C72 with nodes in any order. -/
theorem C95_answers {num : Numerals K} {d : NetText} {file : List Char} (hd : d.Sensible num.value num.int) (hf : LaidOut d file) (hs : ShortTexts d) (hl : LabelsLast d)
    (hp : d.pots ≠ []) : AnswersBy (d.byFirst num.value) num d file :=
  answers_read (always_first hd) hd hf hs hl hp

/-- **C95**, `nipinference`. -/
theorem C95_inference {num : Numerals K} {d : NetText} {net data : List Char} (h : UsableFiles num d net data) (hne : groupsOf data ≠ []) :
    InfersBy (d.byFirst num.value) num d net data :=
  infers_read (always_first h.sensible) h hne

/-- **C95**, `nipmap`. -/
theorem C95_map {num : Numerals K} {d : NetText} {net data : List Char} (h : UsableFiles num d net data) (hne : groupsOf data ≠ []) (hun : unseen d data ≠ []) :
    MapsBy (d.byFirst num.value) num d net data :=
  maps_read (always_first h.sensible) h hne hun

/-- **C95**, `nipnext`. -/
theorem C95_next {num : Numerals K} {d : NetText} {net data : List Char} (h : UsableFiles num d net data) (hne : groupsOf data ≠ []) :
    NextsBy (d.byFirst num.value) num d net data :=
  nexts_read (always_first h.sensible) h hne

/-- **C95**, `niplikelihood` (partial): in the first line of each series, and in all lines if no node has a successor.  The later lines are wrong in any order of the nodes
(`C91_refuted`). -/
theorem C95_likelihood_partial {num : Numerals K} {d : NetText} {net data : List Char} (h : UsableFiles num d net data) (hne : groupsOf data ≠ []) :
    LikelihoodBy (d.byFirst num.value) num d net data (fun t => t = 0 ∨ ∀ n ∈ d.nodes, n.next = none) :=
  likelihood_read (always_first h.sensible) h hne

/-- **C95**, `nipjoint` (partial): for at least one name, all different, and a network file in which every two nodes are neighbours.  What is missing: no names, and other
networks, for which the program is wrong in any order of the nodes (`C92_no_names_refuted`, `C92_cliques_refuted`). -/
theorem C95_joint_partial {num : Numerals K} {d : NetText} {net data : List Char} (h : UsableFiles num d net data) (hne : groupsOf data ≠ [])
    (hone : ∀ n ∈ d.nodes, ∀ m ∈ d.nodes, n.name ≠ m.name → d.Neighbours n.name m.name) {names : List (List Char)} (hn : names ≠ []) (hnames : NodeNames d names) :
    JointBy (d.byFirst num.value) num d net data names :=
  joint_read (always_first h.sensible) h hne hone hn hnames

variable (K) in
/-- **C95** in full, for the two programs with a partial theorem. -/
def C95_full : Prop := ∀ (num : Numerals K) (d : NetText) (net data : List Char), UsableFiles num d net data → groupsOf data ≠ [] →
  LikelihoodBy (d.byFirst num.value) num d net data (fun _ => True) ∧ ∀ names, NodeNames d names → JointBy (d.byFirst num.value) num d net data names

/-- **C95** in full is false: `C92_no_names_refuted`. -/
theorem C95_refuted : ¬ C95_full ℚ := by
  intro h
  obtain ⟨_, _, _, _, h1, _⟩ := (h decimalNum meeting _ seenC meeting_good.toUsableFiles (by decide +kernel)).2 [] ⟨by decide, by decide⟩
    exponents percent letters 8 Session.initial rfl Statics.initial_fresh
  rw [C92_no_names_refuted meeting_good.toUsableFiles (by decide +kernel) _ _ _ _ rfl Statics.initial_fresh] at h1
  cases h1

/-! ## an example -/

/-- The files with the parent declared first, for which C82, C83 and C84 are false, are usable. -/
theorem early_usable : UsableFiles decimalNum earlyParent earlyFile silentData where
  sensible := earlyParent_sensible
  laidOut := laidOut_words earlyParent (by decide +kernel)
  short := by
    refine ⟨by decide, ?_, by decide⟩
    intro n hn w hw
    simp only [earlyParent, lateWeather, List.mem_cons, List.not_mem_nil, or_false] at hn
    rcases hn with rfl | rfl <;> cases hw
  labels := by unfold LabelsLast; decide
  pots := by decide
  temporal := by
    constructor
    · intro n hn w hw
      simp only [earlyParent, lateWeather, List.mem_cons, List.not_mem_nil, or_false] at hn
      rcases hn with rfl | rfl <;> cases hw
    · intro n hn m hm w hw
      simp only [earlyParent, lateWeather, List.mem_cons, List.not_mem_nil, or_false] at hn
      rcases hn with rfl | rfl <;> cases hw
  states := by decide
  columns := by
    have h : columnNames silentData = ["A".toList] := by decide +kernel
    rw [h]
    intro n hn c c' h1 h2
    have hc : c < 1 := by by_contra hge; rw [List.getElem?_eq_none (by simp only [List.length_cons, List.length_nil]; omega)] at h1; cases h1
    have hc' : c' < 1 := by by_contra hge; rw [List.getElem?_eq_none (by simp only [List.length_cons, List.length_nil]; omega)] at h2; cases h2
    omega
  long := by
    have h : columnNames silentData = ["A".toList] := by decide +kernel
    rw [h, silent_groups]
    intro lines hl line hline n hn c hc
    have hc' : c < 1 := by by_contra hge; rw [List.getElem?_eq_none (by simp only [List.length_cons, List.length_nil]; omega)] at hc; cases hc
    have : (fields ',' line).length = 1 := by
      simp only [List.mem_cons, List.not_mem_nil, or_false] at hl
      subst hl
      simp only [List.mem_cons, List.not_mem_nil, or_false] at hline
      subst hline
      decide +kernel
    omega

/-- thousandths -/
def mille (q : ℚ) : List Char := (Nat.toDigits 10 (q * 1000).floor.toNat)

/-- The hypotheses are met.  In the file `B` is `x` with probability 51/100, and the numbers of `A` are 1/4, 3/4 and 1/2, 1/2 given the states of `B`.  Read over the states of
`B` these are 1/3, 3/5 and 2/3, 2/5, and `B` is `x` with probability 51/107; that is what `nipinference` writes. -/
example : InfersBy (earlyParent.byFirst decimalNum.value) decimalNum earlyParent earlyFile silentData ∧
    Tellable (earlyParent.byFirst decimalNum.value) earlyParent silentData ["?\n".toList] ∧
    earlyParent.storyPosterior (earlyParent.prob decimalNum.value) (tellings earlyParent silentData ["?\n".toList]) 0 "B".toList = [51 / 100, 49 / 100] ∧
    earlyParent.storyPosterior (earlyParent.byFirst decimalNum.value) (tellings earlyParent silentData ["?\n".toList]) 0 "B".toList = [51 / 107, 56 / 107] ∧
    inferenceMain exponents mille decimalNum 8 Session.initial earlyFile silentData "B".toList = ok (0, some "x,y\n476,523\n\n".toList) := by
  refine ⟨C95_inference early_usable (by decide +kernel), ?_, ?_, ?_, ?_⟩
  · unfold Tellable
    decide +kernel
  all_goals decide +kernel

/-- `nipmap`, `nipnext`, `niplikelihood`, `nipjoint` and questions for the same files -/
example : MapsBy (earlyParent.byFirst decimalNum.value) decimalNum earlyParent earlyFile silentData ∧
    NextsBy (earlyParent.byFirst decimalNum.value) decimalNum earlyParent earlyFile silentData ∧
    LikelihoodBy (earlyParent.byFirst decimalNum.value) decimalNum earlyParent earlyFile silentData (fun t => t = 0 ∨ ∀ n ∈ earlyParent.nodes, n.next = none) ∧
    JointBy (earlyParent.byFirst decimalNum.value) decimalNum earlyParent earlyFile silentData ["A".toList, "B".toList] ∧
    AnswersBy (earlyParent.byFirst decimalNum.value) decimalNum earlyParent earlyFile ∧
    jointMain exponents mille letters decimalNum 8 Session.initial earlyFile silentData ["A".toList, "B".toList] =
      ok (0, "nipjoint:\nP(A, B) equals: \nP(0, 0) = 170\nP(1, 0) = 306\nP(0, 1) = 327\nP(1, 1) = 196\nMarginal probability before evidence: m1 = q\nMarginal probability after evidence : m2 = q\nLog. likelihood: ln(m2/m1) = q\n".toList) := by
  have hne : groupsOf silentData ≠ [] := by decide +kernel
  refine ⟨C95_map early_usable hne (by decide +kernel), C95_next early_usable hne, C95_likelihood_partial early_usable hne, C95_joint_partial early_usable hne ?_ (by decide) ⟨by decide, by decide⟩,
    C95_answers early_usable.sensible early_usable.laidOut early_usable.short early_usable.labels early_usable.pots, by decide +kernel⟩
  intro n hn m hm _
  refine Or.inl ⟨_, List.mem_cons_self, ?_⟩
  revert n m
  decide

/-- `nipconvert` for the same files (C93) -/
example : ConvertsRight decimalNum earlyParent earlyFile silentData := C93_convert_partial early_usable

end Nip.Props
