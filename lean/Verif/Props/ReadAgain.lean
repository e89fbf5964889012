import Verif.ReadAgain

/-!
# C71: a network file that is read, used, written and read again
-/

namespace Nip

open Res Spec

set_option linter.unusedSectionVars false
set_option synthInstance.maxSize 1000

variable {K : Type} [Field K] [LinearOrder K] [IsStrictOrderedRing K]

namespace Props

/-- Every potential has numbers, and as many as the child has states make a distribution, for all states of the parents. -/
def Distributions (value : List Char → K) (d : NetText) : Prop :=
  ∀ p ∈ d.pots, ∃ g, p.data = some g ∧ ∀ j, j < ((p.parents.getD []).map d.card).prod →
    ∑ i ∈ Finset.range (d.card p.child), value (g.words.getD (j * d.card p.child + i) []) = 1

theorem describes_card {value : List Char → K} {d : NetText} {base : Nat} {f : NetFile K} (hD : d.Describes value base f) {w : List Char} (hw : ∃ n ∈ d.nodes, n.name = w) :
    f.card (base + d.place w) = d.card w := by
  have h := hD.card _ (List.getElem_mem (place_lt hw))
  rw [place_name hw] at h
  rw [h, card_place hw]

theorem describes_inj {d : NetText} {base : Nat} {w u : List Char} (hw : ∃ n ∈ d.nodes, n.name = w) (hu : ∃ n ∈ d.nodes, n.name = u) (h : base + d.place w = base + d.place u) : w = u := by
  have h' : d.place w = d.place u := by omega
  rw [← place_name hw, ← place_name hu]
  simp only [h']

theorem distributions_proper {num : Numerals K} {d : NetText} (hd : d.Sensible num.value num.int) (hdist : Distributions num.value d) {base : Nat} {f : NetFile K}
    (hD : d.Describes num.value base f) {p : PotText} (hp : p ∈ d.pots) : ∃ g, p.data = some g ∧
      ProperTable f.card (base + d.place p.child) ((p.parents.getD []).map (fun w => base + d.place w)) (g.words.map num.value) := by
  obtain ⟨g, hg, h⟩ := hdist p hp
  refine ⟨g, hg, fun x hx => ?_⟩
  have hs := hd.pots p hp
  have hnames : ∀ w ∈ p.parents.getD [], ∃ n ∈ d.nodes, n.name = w := fun w hw => hs.names w (by simp [hw])
  have hchild : ∃ n ∈ d.nodes, n.name = p.child := hs.names _ (by simp)
  have hcards : ((p.parents.getD []).map (fun w => base + d.place w)).map f.card = (p.parents.getD []).map d.card := by
    rw [List.map_map]
    exact List.map_congr_left fun w hw => describes_card hD (hnames w hw)
  have hlt : rowMajor f.card x ((p.parents.getD []).map (fun w => base + d.place w)) < ((p.parents.getD []).map d.card).prod := by
    rw [rowMajor_eq, ← hcards]
    refine lt_of_lt_of_eq (position_lt (inRange_map fun v hv => hx v (List.mem_cons_of_mem _ (List.mem_reverse.1 hv)))) ?_
    rw [List.map_reverse, List.prod_reverse]
  rw [describes_card hD hchild]
  rw [← h _ hlt]
  refine Finset.sum_congr rfl fun i hi => ?_
  have hi := Finset.mem_range.1 hi
  have hrow : rowMajor f.card (withState x (base + d.place p.child) i) ((p.parents.getD []).map (fun w => base + d.place w) ++ [base + d.place p.child]) =
      rowMajor f.card x ((p.parents.getD []).map (fun w => base + d.place w)) * d.card p.child + i := by
    have hsame : ∀ (l : List Nat) (a : Nat), (base + d.place p.child) ∉ l →
        l.foldl (fun a v => a * f.card v + withState x (base + d.place p.child) i v) a = l.foldl (fun a v => a * f.card v + x v) a := by
      intro l
      induction l with
      | nil => intro a _; rfl
      | cons v l ih =>
        intro a hv
        rw [List.foldl_cons, List.foldl_cons, ih _ (fun h => hv (List.mem_cons_of_mem _ h))]
        have : withState x (base + d.place p.child) i v = x v := by
          unfold withState
          exact if_neg fun h => hv (by rw [← h]; simp)
        rw [this]
    unfold rowMajor
    rw [List.foldl_append, hsame ((p.parents.getD []).map (fun w => base + d.place w))]
    · simp [withState, describes_card hD hchild]
    · intro hm
      obtain ⟨w, hw, he⟩ := List.mem_map.1 hm
      have := describes_inj (hnames w hw) hchild he
      subst this
      exact (List.nodup_cons.1 hs.distinct).1 hw
  unfold written
  rw [hrow]
  have hidx : rowMajor f.card x ((p.parents.getD []).map (fun w => base + d.place w)) * d.card p.child + i < g.words.length := by
    refine lt_of_lt_of_le ?_ (hs.numbers g hg).1
    rw [List.map_cons, List.prod_cons]
    calc _ < rowMajor f.card x ((p.parents.getD []).map (fun w => base + d.place w)) * d.card p.child + d.card p.child := by omega
      _ = (rowMajor f.card x ((p.parents.getD []).map (fun w => base + d.place w)) + 1) * d.card p.child := by ring
      _ ≤ ((p.parents.getD []).map d.card).prod * d.card p.child := Nat.mul_le_mul_right _ hlt
      _ = _ := Nat.mul_comm _ _
  rw [List.getD_eq_getElem?_getD, List.getD_eq_getElem?_getD, List.getElem?_map, List.getElem?_eq_getElem hidx]
  rfl

/-- the tables that are read are conditional distributions -/
theorem describes_normalised {num : Numerals K} {d : NetText} (hd : d.Sensible num.value num.int) (hdist : Distributions num.value d) {base : Nat} {f : NetFile K} (hV : f.Valid)
    (hD : d.Describes num.value base f) (hc : ∀ p ∈ d.pots, ∀ w ∈ p.parents.getD [], d.place p.child < d.place w) : f.Normalised := by
  intro q hq x hx
  have hw := as_written hV hD hc
  have hst := hD.pots
  unfold AsWritten at hw
  rw [List.forall₂_iff_get] at hw hst
  obtain ⟨i, hi, rfl⟩ := List.getElem_of_mem hq
  have hi' : i < d.pots.length := by rw [hst.1]; exact hi
  have h1 := hst.2 i hi' hi
  have h2 := hw.2 i hi' hi
  have hp : d.pots.get ⟨i, hi'⟩ ∈ d.pots := List.get_mem _ _
  have h3 := hV.parents _ hq
  have hchild := hV.child _ hq
  change Stored f _ _ _ f.pots[i] at h1
  change ∀ g, _ → _ → ∀ x, _ → f.entry f.pots[i] x = _ at h2
  generalize d.pots.get ⟨i, hi'⟩ = p at hp h1 h2
  generalize f.pots[i] = q at h1 h2 h3 hchild
  obtain ⟨g, hg, hprop⟩ := distributions_proper hd hdist hD hp
  have hmap : (p.parents.map (fun l => l.map (fun w => base + d.place w))).getD [] = (p.parents.getD []).map (fun w => base + d.place w) := by
    cases p.parents <;> rfl
  have hpar : ∀ v ∈ (p.parents.getD []).map (fun w => base + d.place w), v ∈ f.vars := by
    intro v hv
    refine (h3.2 v ?_).1
    rw [h1.parents, List.mem_reverse, hmap]
    exact hv
  have hcomb : Combination f.card ((base + d.place p.child) :: (p.parents.getD []).map (fun w => base + d.place w)) x := by
    intro v hv
    rcases List.mem_cons.1 hv with rfl | hv
    · exact hx _ (by rw [← h1.child]; exact hchild)
    · exact hx v (hpar v hv)
  rw [h1.child, ← hprop x hcomb]
  refine Finset.sum_congr rfl fun j hj => ?_
  have hup : Function.update x (base + d.place p.child) j = withState x (base + d.place p.child) j := by
    funext v
    unfold withState Function.update
    simp
  rw [hup]
  refine h2 g hg hprop _ fun v hv => ?_
  unfold withState
  split
  · rename_i h; rw [h]; exact Finset.mem_range.1 hj
  · exact hcomb v hv

/-- **C71** for files (partial): a file that makes sense is read, the model is used in any way, written, and read in another process: what comes back has the
same shape, and numbers that differ by rounding or are zero for states of the parents that cannot occur.  What is missing from `C71_full`: names of states
with separators, children declared after a parent, numbers that are not distributions, texts of more than 40 characters. -/
theorem C71_file_partial {num : Numerals K} {fmt : K → List Char} (hF : Formats num fmt) (hint : ∀ w n, num.int w = some n → n < 2147483648) {d : NetText} {file : List Char}
    (hd : d.Sensible num.value num.int) (hf : LaidOut d file) (hs : ShortTexts d) (hp : d.pots ≠ []) (hl : LabelsLast d)
    (hsep : ∀ n ∈ d.nodes, ∀ w ∈ n.states, w.any separators.contains = false) (hfew : ∀ p ∈ d.pots, (p.parents.getD []).length ≤ 100)
    (hcard : ∀ n ∈ d.nodes, n.states.length ≤ 1000000) (hc : ∀ p ∈ d.pots, ∀ w ∈ p.parents.getD [], d.place p.child < d.place w) (hdist : Distributions num.value d)
    (ptr : Nat) (s : Session K) (hr : s.lex.readLine = true) (hg : s.g.Fresh) (hsize : s.g.sizeX < 2147483648 ∧ s.g.sizeY < 2147483648) :
    ∃ r e, parseModel num ptr s file = ok (some r, e) ∧ d.Describes num.value s.g.nextId r.file ∧
      ∀ hist : List (Op K), (∀ op ∈ hist, op.Valid r.file.net) → ∃ m, NetFile.runFile ptr r.file hist = ok m ∧ ComesBack num fmt CloseColumns { r with model := m } := by
  obtain ⟨m0, l, a, b, e, hb, hV, hD, _, hab, h⟩ := parse_sizes hd hf hs.names hp hl ptr s hr hg
  refine ⟨_, _, h, hD, fun hist hh => ?_⟩
  obtain ⟨m, hm, _⟩ := runFile_spec ptr hV hh
  refine ⟨m, hm, ?_⟩
  have hab' : a < 2147483648 ∧ b < 2147483648 := by
    have : ∀ w, (num.int w).getD 0 < 2147483648 := by
      intro w
      cases hq : num.int w with
      | none => simp
      | some n => exact hint _ _ hq
    unfold sizesAfter at hab
    cases hq : sizeGiven d.frame.fields with
    | none =>
      rw [hq] at hab
      cases hab
      exact hsize
    | some p =>
      rw [hq] at hab
      cases hab
      exact ⟨this _, this _⟩
  refine C71_numbers_partial (r := { model := m, file := NetText.file d num s.g.nextId l, nodes := recsFrom num s.g.nextId d.nodes, sizeX := a, sizeY := b }) hF hV
    (describes_normalised hd hdist hV hD hc) (read_printable hd hf hs hsep hfew hint hV hD m hab'.1 hab'.2) ?_ ?_ hh hm
  · intro q hq u hu
    obtain ⟨p, hpp, hst⟩ := forall₂_right hD.pots hq
    rw [hst.parents, List.mem_reverse] at hu
    rw [hst.child]
    have hmap : (p.parents.map (fun l => l.map (fun w => s.g.nextId + d.place w))).getD [] = (p.parents.getD []).map (fun w => s.g.nextId + d.place w) := by
      cases p.parents <;> rfl
    rw [hmap] at hu
    obtain ⟨w, hw, rfl⟩ := List.mem_map.1 hu
    have := hc p hpp w hw
    omega
  · intro v hv
    have hv' : v ∈ (NetText.file d num s.g.nextId l).vars := hv
    rw [hD.vars, List.mem_range'_1] at hv'
    obtain ⟨j, rfl⟩ : ∃ j, v = s.g.nextId + j := ⟨v - s.g.nextId, by omega⟩
    have hj : j < d.nodes.length := by omega
    have h2 := hD.card _ (List.getElem_mem hj)
    rw [place_getElem hd.names hj] at h2
    show (NetText.file d num s.g.nextId l).card _ ≤ _
    rw [h2]
    exact hcard _ (List.getElem_mem hj)

/-- a node with states `x` and `y` -/
def plainText (name : String) : NodeText := { discrete := true, name := name.toList, fields := [.states ["x".toList, "y".toList], .position "10".toList "20".toList] }

/-- `A` with parent `B`; the numbers have two digits -/
def weather : NetText :=
  { frame := .net [.size "70".toList "50".toList, .other "author".toList (.text "a b".toList)], nodes := [plainText "A", plainText "B"]
    pots := [{ child := "A".toList, parents := some ["B".toList],
               data := some (.group (.num "0.25".toList (.num "0.75".toList .nil)) (.group (.num "0.5".toList (.num "0.50".toList .nil)) .nil)) },
      { child := "B".toList, parents := none, data := some (.num "0.9".toList (.num "0.1".toList .nil)) }] }

theorem weather_sensible : weather.Sensible decimalNum.value decimalNum.int := by
  have hval : ∀ w, (0 : ℚ) ≤ decimalNum.value w := fun w => by unfold decimalNum; positivity
  refine ⟨by decide, by decide, ?_, ?_, by decide, ?_, by decide⟩
  · intro n hn
    simp only [weather, List.mem_cons, List.not_mem_nil, or_false] at hn
    rcases hn with rfl | rfl <;> exact ⟨by decide, by decide, fun p hp => by cases hp; decide +kernel⟩
  · intro x y h
    simp only [weather, Frame.fields, List.mem_cons, List.not_mem_nil, or_false, reduceCtorEq, NetField.size.injEq] at h
    obtain ⟨rfl, rfl⟩ := h
    decide +kernel
  · intro p hp
    simp only [weather, List.mem_cons, List.not_mem_nil, or_false] at hp
    rcases hp with rfl | rfl
    · exact ⟨by decide, by decide, by decide, fun g hg => by cases hg; exact ⟨by decide, fun w _ => hval w⟩⟩
    · exact ⟨by decide, by decide, by decide, fun g hg => by cases hg; exact ⟨by decide, fun w _ => hval w⟩⟩

theorem weather_distributions : Distributions decimalNum.value weather := by
  intro p hp
  simp only [weather, List.mem_cons, List.not_mem_nil, or_false] at hp
  rcases hp with rfl | rfl
  · exact ⟨_, rfl, by decide +kernel⟩
  · exact ⟨_, rfl, by decide +kernel⟩

/-- The hypotheses of `C71_file_partial` are met; here the model is written after an observation. -/
example : ∃ file r e, parseModel decimalNum 8 Session.initial file = ok (some r, e) ∧
    ∃ m, NetFile.runFile 8 r.file [.observe 2 1] = ok m ∧ ComesBack decimalNum sixDecimals CloseColumns { r with model := m } := by
  have hlay := laidOut_words weather (by decide +kernel)
  have hint : ∀ w n, decimalNum.int w = some n → n < 2147483648 := by
    intro w n h
    unfold decimalNum at h
    simp only [Option.ite_none_right_eq_some, Option.some.injEq] at h
    omega
  obtain ⟨r, e, h1, h2, h3⟩ := C71_file_partial decimals_formats hint weather_sensible hlay ⟨by decide, by decide, by decide⟩ (by decide) (by unfold LabelsLast; decide) (by decide)
    (by decide) (by decide)
    (by decide) weather_distributions 8 Session.initial rfl Statics.initial_fresh ⟨by decide, by decide⟩
  refine ⟨_, r, e, h1, h3 _ ?_⟩
  intro op hop
  rw [List.mem_singleton.1 hop]
  show 2 ∈ r.file.vars
  rw [h2.vars]
  decide

end Props

end Nip
