import Verif.Props.Records
import Verif.Props.Whole
import Verif.Reports
import Verif.Spec.Report

/-!
# Helper lemmas: what is printed about a line of data
-/

namespace Nip

open Res Spec Props

set_option linter.unusedSectionVars false

variable {K : Type} [Field K] [LinearOrder K] [IsStrictOrderedRing K]

variable {num : Numerals K} {d : NetText} {base : Nat} {f : NetFile K}

/-! ### weights of records -/

theorem recordWeight_nonneg (hf : f.Valid) (first : Prop) (seen : Nat → Int) : 0 ≤ f.recordWeight first seen := by
  classical
  unfold NetFile.recordWeight
  refine sumOver_nonneg (fun z => ?_) _
  unfold NetFile.sliceWeight weightOf
  refine mul_nonneg (mul_nonneg ?_ ?_) ?_
  · refine list_prod_nonneg fun a ha => ?_
    obtain ⟨q, hq, rfl⟩ := List.mem_map.1 ha
    exact getD_nonneg (hf.nonneg q (List.mem_of_mem_filter hq)) _
  · refine list_prod_nonneg fun a ha => ?_
    obtain ⟨v, _, rfl⟩ := List.mem_map.1 ha
    split
    · exact getD_nonneg (prior_nonneg hf v) _
    · exact zero_le_one
  · refine list_prod_nonneg fun a ha => ?_
    obtain ⟨v, _, rfl⟩ := List.mem_map.1 ha
    exact getD_nonneg (vision_nonneg _ _ v) _

theorem record_text (hd : d.Sensible num.value num.int) (hV : f.Valid) (hD : d.Describes num.value base f)
    {R : Reading K} (hc : Reads num d base f R)
    (hu : ∀ q ∈ f.pots, q.parents = [] → Usable (f.card q.child) q.table.data) (first : Bool) (seen : Nat → Int) {t : Findings K}
    (hs : ∀ x, Legal f.card f.vars x → (f.vars.map (fun v => (vision (K := K) f.card seen v).getD (x v) 0)).prod = d.support t (f.vars.map x)) :
    f.recordWeight (first = true) seen = stepScale d first * d.stepTotal R first t := by
  unfold NetText.stepTotal NetText.combinations NetFile.recordWeight
  rw [← described_cards hd hD, choices_sum _ (hV.sorted.imp ne_of_lt) _ (fun _ => 0), ← sumOver_const_mul]
  refine sumOver_legal (U := f.vars) (fun z hz => slice_text hd hV hD hc hu first seen hz (hs z hz)) _ _ (fun v h1 h2 => absurd h1 h2)

theorem stepTotal_first (value : Reading K) (t : Findings K) : d.stepTotal value true t = d.total value t := rfl

theorem counts_unlinked (h : ∀ n ∈ d.nodes, n.next = none) (first : Bool) (p : PotText) : p.counts d first = true := by
  unfold PotText.counts
  have : d.nextOf p.child = none := by
    unfold NetText.nextOf
    cases hf : d.nodes.find? (fun n => n.name == p.child) with
    | none => rfl
    | some n => exact h n (List.mem_of_find?_eq_some hf)
  rw [this]
  simp

theorem stepTotal_unlinked (h : ∀ n ∈ d.nodes, n.next = none) (value : Reading K) (first : Bool) (t : Findings K) : d.stepTotal value first t = d.total value t := by
  rw [← stepTotal_first]
  unfold NetText.stepTotal NetText.stepProb
  simp only [counts_unlinked h]

theorem storyTotal_single (value : Reading K) (t : Findings K) : d.storyTotal value [t] = d.total value t := by
  rw [← stepTotal_first]
  unfold NetText.storyTotal NetText.stepTotal
  have : d.stories 1 = d.combinations.map (fun c => [c]) := by
    show d.combinations.flatMap (fun c => [[]].map (fun cs => c :: cs)) = _
    induction d.combinations with
    | nil => rfl
    | cons c l ih => rw [List.flatMap_cons, ih]; rfl
  rw [List.length_singleton, this, List.map_map]
  congr 1
  refine List.map_congr_left fun c _ => ?_
  show d.stepProb value true c * d.support t c * 1 = _
  rw [mul_one]

theorem usable_total (hd : d.Sensible num.value num.int) (hV : f.Valid) (hD : d.Describes num.value base f)
    {R : Reading K} (hc : Reads num d base f R) {t : Findings K} (ht : d.total R t ≠ 0) :
    ∀ q ∈ f.pots, q.parents = [] → Usable (f.card q.child) q.table.data :=
  unusable_story hd hV hD hc (told := [t]) (by simp) (by rwa [storyTotal_single])

/-! ### what a line tells about some nodes -/

open Classical in
theorem others_support (hd : d.Sensible num.value num.int) (hV : f.Valid) (hD : d.Describes num.value base f) {x : VarTexts} (hx : TellsNodes d base x)
    (hst : ∀ n ∈ d.nodes, n.states.Nodup) {header : List (List Char)} (hh : d.OneColumn header) {line : List Char} (hlong : d.LongLines header [line])
    (names : List (List Char)) {z : Asg} (hz : Legal f.card f.vars z) :
    (f.vars.map (fun v => (vision (K := K) f.card (fun v => if OfInterest x names v then -1 else rowSees (fun _ => true) (columnVars x f.vars header)
      ((cols x f.vars header).map (fieldValue (fun v => (x.names v).getD []) (fields fieldSeparator line))) v) v).getD (z v) 0)).prod =
        d.support (aboutOthers names (d.lineTells header line)) (f.vars.map z) := by
  have hcol := row_field hd hV hD hx hh line
  unfold aboutOthers
  refine vision_support hV hD _ _ (((List.filter_sublist).map _).nodup (lineTells_nodup hh line)) ?_ ?_ ?_ hd.names hz
  · intro t ht
    obtain ⟨c, w, _, _, h3, _⟩ := lineTells_mem.1 (List.mem_of_mem_filter ht)
    exact statesOf_mem h3
  · intro t ht
    obtain ⟨ht, hnot⟩ := List.mem_filter.1 ht
    rw [decide_eq_true_eq] at hnot
    obtain ⟨c, w, h1, h2, h3, h4⟩ := lineTells_mem.1 ht
    obtain ⟨n, hn, he⟩ := statesOf_mem h3
    rw [← he] at h1 h3 hnot ⊢
    refine ⟨w, h4, by rw [statesOf_node hd hn]; exact hst n hn, h3, ?_⟩
    rw [if_neg (by unfold OfInterest; rwa [(hx n hn).1]), hcol n hn c h1]
    unfold fieldValue
    simp only
    rw [h2, (hx n hn).2.1]
    simp only [Option.getD_some]
    rw [statesOf_node hd hn] at h3 ⊢
    rw [if_pos h3]
  · intro n hn hno
    by_cases hin : n.name ∈ names
    · rw [if_pos (by unfold OfInterest; rwa [(hx n hn).1])]
      omega
    rw [if_neg (by unfold OfInterest; rwa [(hx n hn).1])]
    by_cases hc : ∃ c : Nat, header[c]? = some n.name
    · obtain ⟨c, hc⟩ := hc
      rw [hcol n hn c hc]
      unfold fieldValue
      simp only
      have hl := hlong line (by simp) n hn c hc
      rw [List.getElem?_eq_getElem hl, (hx n hn).2.1]
      simp only [Option.getD_some]
      rw [if_neg]
      · omega
      · intro hw
        refine hno (List.mem_map.2 ⟨(n.name, .state (fields ',' line)[c]), ?_, rfl⟩)
        exact List.mem_filter.2 ⟨lineTells_mem.2 ⟨c, _, hc, List.getElem?_eq_getElem hl, by rw [statesOf_node hd hn]; exact hw, rfl⟩, by simpa using hin⟩
    · rw [row_none hd hV hD hx line hn hc]
      simp

/-! ### series without columns -/

theorem likelihoodAll_filled (marked : Nat → Bool) {set : List TimeSeries} (h : ∀ ts ∈ set, Counted ts) (m : Model K) :
    likelihoodAll marked (set.map filled) m = likelihoodAll marked set m := by
  unfold likelihoodAll
  generalize (([], m) : List (List (K × K)) × Model K) = st
  induction set generalizing st with
  | nil => rfl
  | cons ts l ih =>
    have hstep : likelihoodStep (K := K) marked (filled ts) = likelihoodStep marked ts := by
      funext t st
      unfold likelihoodStep
      simp only [insertStep_filled (h ts (by simp))]
    rw [List.map_cons, List.foldlM_cons, List.foldlM_cons, hstep]
    congr 1
    funext st
    exact ih (fun ts h' => h ts (by simp [h'])) st

theorem niplikelihood_filled (x : VarTexts) (vars : List Nat) (names : List (List Char)) {set : List TimeSeries} (h : ∀ ts ∈ set, Counted ts) (m : Model K) :
    niplikelihood x vars names (set.map filled) m = niplikelihood x vars names set m := by
  unfold niplikelihood
  rw [likelihoodAll_filled _ h, List.length_map]

/-! ### text -/

theorem likelihoodText_eq (lg : Logs K) (g : Shown K) (l : List (List (K × K))) : likelihoodText lg g l =
    (l.map (fun r => (r.map (fun q => spacedLine [g.number q.1, g.number q.2, g.logDifference lg q.1 q.2])).flatten ++ ['\n'])).flatten := by
  have inner : ∀ (r : List (K × K)) (out : List Char),
      r.foldl (fun out q => out ++ g.number q.1 ++ [' '] ++ g.number q.2 ++ [' '] ++ g.logDifference lg q.1 q.2 ++ ['\n']) out =
        out ++ (r.map (fun q => spacedLine [g.number q.1, g.number q.2, g.logDifference lg q.1 q.2])).flatten := by
    intro r
    induction r with
    | nil => intro out; simp
    | cons q r ih =>
      intro out
      rw [List.foldl_cons, ih, List.map_cons, List.flatten_cons]
      simp [spacedLine, List.intercalate]
  have outer : ∀ (l : List (List (K × K))) (out : List Char),
      l.foldl (fun out r =>
        r.foldl (fun out q => out ++ g.number q.1 ++ [' '] ++ g.number q.2 ++ [' '] ++ g.logDifference lg q.1 q.2 ++ ['\n']) out ++ ['\n']) out =
        out ++ (l.map (fun r => (r.map (fun q => spacedLine [g.number q.1, g.number q.2, g.logDifference lg q.1 q.2])).flatten ++ ['\n'])).flatten := by
    intro l
    induction l with
    | nil => intro out; simp
    | cons r l ih =>
      intro out
      rw [List.foldl_cons, ih, inner, List.map_cons, List.flatten_cons]
      simp
  unfold likelihoodText
  rw [outer, List.nil_append]

end Nip
