import Verif.Props.ReadAgain
import Verif.Named
import Verif.GenerateTotal
import Verif.Spec.Question

/-!
# Helper lemmas: from the joint distribution written in a file to the weights of the network
-/

namespace Nip

open Res Spec

set_option linter.unusedSectionVars false

variable {K : Type} [Field K] [LinearOrder K] [IsStrictOrderedRing K]

/-- a sum over choices is a sum over assignments -/
theorem choices_sum {card : Nat → Nat} : ∀ (vs : List Nat), vs.Nodup → ∀ (G : List Nat → K) (x : Asg),
    ((choices (vs.map card)).map G).sum = sumOver card vs (fun z => G (vs.map z)) x := by
  intro vs
  induction vs with
  | nil => intro _ G x; simp [choices, sumOver]
  | cons v vs ih =>
    intro hn G x
    obtain ⟨h1, h2⟩ := List.nodup_cons.1 hn
    rw [List.map_cons, choices, List.map_flatMap, List.flatMap_def, List.sum_flatten,  List.map_map, sumOver, ← sum_range_list]
    congr 1
    rw [List.map_congr_left]
    intro i _
    show (List.map G (List.map _ _)).sum = _
    rw [List.map_map]
    show ((choices (vs.map card)).map (fun c => G (i :: c))).sum = _
    rw [ih h2 (fun c => G (i :: c)) (Function.update x v i)]
    refine sumOver_congr fun z hz => ?_
    rw [List.map_cons, hz v h1, Function.update_self]

theorem sum_filter_map {α : Type} (l : List α) (p : α → Bool) (G : α → K) : ((l.filter p).map G).sum = (l.map (fun a => if p a then G a else 0)).sum := by
  induction l with
  | nil => rfl
  | cons a l ih =>
    rw [List.filter_cons]
    cases h : p a
    · simp [h, ih]
    · simp [h, ih]

/-- the sum with the state of one variable fixed -/
theorem sumOver_pick {card : Nat → Nat} {vs : List Nat} (hn : vs.Nodup) {v i : Nat} (hv : v ∈ vs) (hi : i < card v) (F : Asg → K) (x : Asg) :
    sumOver card vs (fun z => if z v = i then F z else 0) x = sumOver card (vs.filter (· ∉ [v])) F (Function.update x v i) := by
  have hp : vs.Perm (v :: vs.filter (· ∉ [v])) := by
    refine (List.perm_ext_iff_of_nodup hn ?_).2 ?_
    · refine List.nodup_cons.2 ⟨by simp, hn.filter _⟩
    · intro u
      simp only [List.mem_cons, List.mem_filter, List.not_mem_nil, or_false, decide_eq_true_eq]
      constructor
      · intro hu
        by_cases h : u = v
        · exact Or.inl h
        · exact Or.inr ⟨hu, h⟩
      · rintro (rfl | ⟨h, _⟩)
        · exact hv
        · exact h
  rw [sumOver_perm hp, sumOver]
  have hnot : v ∉ vs.filter (· ∉ [v]) := by simp
  rw [Finset.sum_eq_single i]
  · refine sumOver_congr fun z hz => ?_
    rw [hz v hnot, Function.update_self, if_pos rfl]
  · intro j _ hj
    refine sumOver_eq_zero fun z hz => ?_
    rw [hz v hnot, Function.update_self, if_neg hj]
  · intro h
    exact absurd (Finset.mem_range.2 hi) h

section Text

variable {num : Numerals K} {d : NetText} {base : Nat} {f : NetFile K}

theorem described_cards (hd : d.Sensible num.value num.int) (hD : d.Describes num.value base f) : f.vars.map f.card = d.nodes.map (fun n => n.states.length) := by
  rw [hD.vars]
  refine List.ext_getElem (by simp) fun i h1 h2 => ?_
  have hi : i < d.nodes.length := by simpa using h1
  have := hD.card _ (List.getElem_mem hi)
  rw [place_getElem hd.names hi] at this
  simp [this]

/-- the state in a combination is the state in the assignment -/
theorem stateIn_map (hD : d.Describes num.value base f) (x : Asg) {w : List Char} (hw : ∃ n ∈ d.nodes, n.name = w) : d.stateIn (f.vars.map x) w = x (base + d.place w) := by
  unfold NetText.stateIn
  rw [hD.vars, List.getD_eq_getElem?_getD, List.getElem?_map, List.getElem?_range' (place_lt hw)]
  simp

theorem change_map (hD : d.Describes num.value base f) (x : Asg) {w : List Char} (hw : ∃ n ∈ d.nodes, n.name = w) (i : Nat) :
    d.change (f.vars.map x) w i = f.vars.map (withState x (base + d.place w) i) := by
  unfold NetText.change
  rw [hD.vars]
  refine List.ext_getElem (by simp) fun j h1 h2 => ?_
  rw [List.getElem_set]
  simp only [List.getElem_map, List.getElem_range', one_mul]
  unfold withState
  by_cases h : d.place w = j
  · rw [if_pos h, if_pos (by omega)]
  · rw [if_neg h, if_neg (by omega)]

theorem placeIn_map (hd : d.Sensible num.value num.int) (hD : d.Describes num.value base f) (x : Asg) {p : PotText} (hp : p ∈ d.pots) :
    p.placeIn d (f.vars.map x) = rowMajor f.card x ((p.parents.getD []).map (fun w => base + d.place w) ++ [base + d.place p.child]) := by
  unfold PotText.placeIn rowMajor
  have hmap : (p.parents.getD []).map (fun w => base + d.place w) ++ [base + d.place p.child] = (p.parents.getD [] ++ [p.child]).map (fun w => base + d.place w) := by simp
  rw [hmap, List.foldl_map]
  have hnames : ∀ w ∈ p.parents.getD [] ++ [p.child], ∃ n ∈ d.nodes, n.name = w := by
    intro w hw
    refine (hd.pots p hp).names w ?_
    rw [List.mem_append, List.mem_singleton] at hw
    exact List.mem_cons.2 hw.symm
  revert hnames
  generalize p.parents.getD [] ++ [p.child] = l
  generalize 0 = a
  intro hnames
  induction l generalizing a with
  | nil => rfl
  | cons w l ih =>
    rw [List.foldl_cons, List.foldl_cons, stateIn_map hD x (hnames w (by simp)), Props.describes_card hD (hnames w (by simp))]
    exact ih _ fun u hu => hnames u (by simp [hu])

/-- the number written is the number written -/
theorem number_map (hd : d.Sensible num.value num.int) (hD : d.Describes num.value base f) {p : PotText} (hp : p ∈ d.pots) {g : Grouped} (hg : p.data = some g) {x : Asg}
    (hx : Combination f.card ((base + d.place p.child) :: (p.parents.getD []).map (fun w => base + d.place w)) x) :
    p.number d num.value (f.vars.map x) =
      written f.card (base + d.place p.child) ((p.parents.getD []).map (fun w => base + d.place w)) (g.words.map num.value) x := by
  unfold PotText.number written
  rw [hg]
  simp only
  rw [placeIn_map hd hD x hp]
  have hlt : rowMajor f.card x ((p.parents.getD []).map (fun w => base + d.place w) ++ [base + d.place p.child]) < g.words.length := by
    refine lt_of_lt_of_le ?_ ((hd.pots p hp).numbers g hg).1
    rw [rowMajor_eq]
    refine lt_of_lt_of_eq (position_lt (inRange_map fun v hv => hx v ?_)) ?_
    · have := List.mem_reverse.1 hv
      rw [List.mem_append, List.mem_singleton] at this
      exact List.mem_cons.2 this.symm
    · rw [List.map_reverse, List.prod_reverse, List.map_append, List.prod_append, List.map_singleton, List.prod_singleton, List.map_cons, List.prod_cons, mul_comm,
        Props.describes_card hD ((hd.pots p hp).names _ (by simp)), List.map_map]
      congr 2
      refine List.map_congr_left fun w hw => ?_
      exact Props.describes_card hD ((hd.pots p hp).names w (by simp [hw]))
  rw [List.getD_eq_getElem?_getD, List.getD_eq_getElem?_getD, List.getElem?_map, List.getElem?_eq_getElem hlt]
  rfl

/-- the node declared first is of the family, and no other is declared before it -/
theorem firstDeclared_spec (hd : d.Sensible num.value num.int) {p : PotText} (hp : p ∈ d.pots) :
    p.firstDeclared d ∈ p.child :: p.parents.getD [] ∧ ∀ w ∈ p.child :: p.parents.getD [], d.place (p.firstDeclared d) ≤ d.place w := by
  unfold PotText.firstDeclared
  cases h : (d.nodes.map (fun n => n.name)).find? (fun w => decide (w ∈ p.child :: p.parents.getD [])) with
  | none =>
    obtain ⟨n, hn, he⟩ := (hd.pots p hp).names p.child (by simp)
    have := List.find?_eq_none.1 h n.name (List.mem_map.2 ⟨n, hn, rfl⟩)
    rw [he] at this
    simp at this
  | some w =>
    obtain ⟨h1, i, hi, h2, h3⟩ := List.find?_eq_some_iff_getElem.1 h
    have hlen : i < d.nodes.length := by simpa using hi
    refine ⟨by simpa using h1, fun u hu => ?_⟩
    have hw : d.place w = i := by
      rw [← h2, List.getElem_map]
      exact place_getElem hd.names hlen
    rw [Option.getD_some, hw]
    by_contra hlt
    have hu' := (hd.pots p hp).names u hu
    have hpl := place_lt hu'
    have h4 := h3 (d.place u) (by omega)
    rw [List.getElem_map] at h4
    have h5 : d.nodes[d.place u].name = u := by
      obtain ⟨n, hn, rfl⟩ := hu'
      obtain ⟨k, hk, rfl⟩ := List.mem_iff_getElem.1 hn
      have := place_getElem hd.names hk
      simp only [this]
    rw [h5] at h4
    simp only [Bool.not_eq_eq_eq_not, Bool.not_true, decide_eq_false_iff_not] at h4
    exact h4 hu

/-- the first of the family is the node that is declared first -/
theorem family_first (hd : d.Sensible num.value num.int) (hV : f.Valid) (hD : d.Describes num.value base f) {p : PotText} (hp : p ∈ d.pots) {q : Parsed K} (hq : q ∈ f.pots)
    (hst : Stored f (base + d.place p.child) (p.parents.map (fun l => l.map (fun w => base + d.place w))) (p.data.map (fun g => g.words.map num.value)) q) :
    ∃ s, f.family q = (base + d.place (p.firstDeclared d)) :: s := by
  have hmap : (p.parents.map (fun l => l.map (fun w => base + d.place w))).getD [] = (p.parents.getD []).map (fun w => base + d.place w) := by
    cases p.parents <;> rfl
  obtain ⟨hf1, hf2⟩ := firstDeclared_spec hd hp
  have hfam : ∀ w ∈ p.child :: p.parents.getD [], base + d.place w ∈ f.family q := by
    intro w hw
    refine List.mem_filter.2 ⟨?_, ?_⟩
    · rw [hD.vars, List.mem_range'_1]
      have := place_lt ((hd.pots p hp).names w hw)
      omega
    · rw [decide_eq_true_eq, hst.child, hst.parents, List.mem_reverse, hmap]
      rcases List.mem_cons.1 hw with rfl | hw
      · exact Or.inl rfl
      · exact Or.inr (List.mem_map.2 ⟨w, hw, rfl⟩)
  have hc1 := hfam _ hf1
  cases hfm : f.family q with
  | nil => rw [hfm] at hc1; cases hc1
  | cons v s =>
    have hv : v ∈ f.family q := by rw [hfm]; simp
    have hsort : (f.family q).Pairwise (· < ·) := hV.sorted.filter _
    have hle : v ≤ base + d.place (p.firstDeclared d) := by
      rw [hfm] at hc1 hsort
      rcases List.mem_cons.1 hc1 with h | h
      · omega
      · exact Nat.le_of_lt ((List.pairwise_cons.1 hsort).1 _ h)
    have : base + d.place (p.firstDeclared d) ≤ v := by
      have := (List.mem_filter.1 hv).2
      simp only [decide_eq_true_eq] at this
      rcases this with h | h
      · rw [h, hst.child]
        have := hf2 p.child (by simp)
        omega
      · rw [hst.parents, List.mem_reverse, hmap, List.mem_map] at h
        obtain ⟨w, hw, rfl⟩ := h
        have := hf2 w (by simp [hw])
        omega
    exact ⟨s, by rw [Nat.le_antisymm hle this]⟩

/-- a table without parents and numbers is left as ones -/
def unscaled (d : NetText) (p : PotText) : K := if p.data = none ∧ p.parents = none then (d.card p.child : K) else 1

/-- The numbers of the tables that are read are those of the reading, except that a table without parents and numbers is left as ones. -/
def Reads (num : Numerals K) (d : NetText) (base : Nat) (f : NetFile K) (R : Reading K) : Prop :=
  ∀ p ∈ d.pots, ∀ q ∈ f.pots,
    Stored f (base + d.place p.child) (p.parents.map (fun l => l.map (fun w => base + d.place w))) (p.data.map (fun g => g.words.map num.value)) q →
    ∀ x, Legal f.card f.vars x → f.entry q x = unscaled d p * R p (f.vars.map x)

/-- the numbers of the table that is read are in proportion over the states of the node declared first -/
theorem reads_first (hd : d.Sensible num.value num.int) (hV : f.Valid) (hD : d.Describes num.value base f) : Reads num d base f (d.byFirst num.value) := by
  intro p hp q hq hst x hx
  obtain ⟨s, hs⟩ := family_first hd hV hD hp hq hst
  have hmap : (p.parents.map (fun l => l.map (fun w => base + d.place w))).getD [] = (p.parents.getD []).map (fun w => base + d.place w) := by
    cases p.parents <;> rfl
  have hmem : ∀ w, (∃ n ∈ d.nodes, n.name = w) → base + d.place w ∈ f.vars := by
    intro w hw
    rw [hD.vars, List.mem_range'_1]
    have := place_lt hw
    omega
  have hnames := (hd.pots p hp).names
  have hcomb : ∀ z : Asg, Legal f.card f.vars z → Combination f.card ((base + d.place p.child) :: (p.parents.getD []).map (fun w => base + d.place w)) z := by
    intro z hz v hv
    refine hz v ?_
    rcases List.mem_cons.1 hv with rfl | hv
    · exact hmem _ (hnames _ (by simp))
    · obtain ⟨w, hw, rfl⟩ := List.mem_map.1 hv
      exact hmem _ (hnames w (by simp [hw]))
  obtain ⟨a, ha⟩ : ∃ a, a = p.firstDeclared d := ⟨_, rfl⟩
  have hfam : a ∈ p.child :: p.parents.getD [] := by rw [ha]; exact (firstDeclared_spec hd hp).1
  rw [← ha] at hs
  have hchild : ∃ n ∈ d.nodes, n.name = a := hnames _ hfam
  have hcard := Props.describes_card hD hchild
  have hxc : x (base + d.place a) < f.card (base + d.place a) := hx _ (hmem _ hchild)
  have hlegal : ∀ i, i < d.card a → Legal f.card f.vars (withState x (base + d.place a) i) := by
    intro i hi v hv
    unfold withState
    split
    · rename_i h; rw [h, hcard]; exact hi
    · exact hx v hv
  rw [hst.table x (by rw [hmap]; exact hcomb x hx) _ s hs]
  unfold tableValue unscaled NetText.byFirst
  rw [← ha]
  have hsum : ((List.range (d.card a)).map (fun i => p.number d num.value (d.change (f.vars.map x) a i))).sum =
      ∑ i ∈ Finset.range (f.card (base + d.place a)), p.number d num.value (f.vars.map (withState x (base + d.place a) i)) := by
    rw [sum_range_list, hcard]
    refine Finset.sum_congr rfl fun i _ => ?_
    rw [change_map hD x hchild]
  rw [hsum]
  cases hg : p.data with
  | some g =>
    simp only [Option.map_some, reduceCtorEq, false_and, if_false, one_mul, hmap]
    have hsum' : ∑ i ∈ Finset.range (f.card (base + d.place a)), p.number d num.value (f.vars.map (withState x (base + d.place a) i)) =
        ∑ i ∈ Finset.range (f.card (base + d.place a)),
          written f.card (base + d.place p.child) ((p.parents.getD []).map (fun w => base + d.place w)) (g.words.map num.value) (withState x (base + d.place a) i) := by
      refine Finset.sum_congr rfl fun i hi => ?_
      exact number_map hd hD hp hg (hcomb _ (hlegal i (by rw [← hcard]; exact Finset.mem_range.1 hi)))
    rw [hsum', number_map hd hD hp hg (hcomb x hx)]
    unfold scaled
    split
    · rename_i h0
      rw [h0, div_zero]
      have hnn : ∀ a ∈ g.words.map num.value, 0 ≤ a := by
        intro a ha
        obtain ⟨w, hw, rfl⟩ := List.mem_map.1 ha
        exact ((hd.pots p hp).numbers g hg).2 w hw
      have := (Finset.sum_eq_zero_iff_of_nonneg (fun i _ => written_nonneg hnn _)).1 h0 _ (Finset.mem_range.2 hxc)
      rw [withState_self] at this
      exact this
    · rfl
  | none =>
    have hone : ∀ c, p.number d num.value c = 1 := by
      intro c
      unfold PotText.number
      rw [hg]
    have hpos : (d.card a : K) ≠ 0 := by
      rw [← hcard]
      exact Nat.cast_ne_zero.2 (by omega)
    simp only [Option.map_none, hone, Finset.sum_const, Finset.card_range, nsmul_eq_mul, mul_one, hcard, true_and]
    cases hpar : p.parents with
    | none =>
      have hac : a = p.child := by
        rw [hpar] at hfam
        simpa using hfam
      simp only [Option.map_none, if_true]
      rw [← hac, mul_one_div_cancel hpos]
    | some l =>
      simp only [Option.map_some, reduceCtorEq, if_false, one_mul]
      unfold scaled
      simp only [Finset.sum_const, Finset.card_range, nsmul_eq_mul, mul_one, hcard]
      rw [if_neg hpos]

/-- if children are declared before their parents, these are the conditional probabilities of the children -/
theorem reads_prob (hd : d.Sensible num.value num.int) (hV : f.Valid) (hD : d.Describes num.value base f)
    (hc : ∀ p ∈ d.pots, ∀ w ∈ p.parents.getD [], d.place p.child < d.place w) : Reads num d base f (d.prob num.value) := by
  intro p hp q hq hst x hx
  rw [reads_first hd hV hD p hp q hq hst x hx]
  obtain ⟨h1, h2⟩ := firstDeclared_spec hd hp
  have : p.firstDeclared d = p.child := by
    rcases List.mem_cons.1 h1 with h | h
    · exact h
    · have := hc p hp _ h
      have := h2 p.child (by simp)
      omega
  unfold NetText.byFirst NetText.prob PotText.prob
  rw [this]

/-- whatever the identities of the variables -/
def AlwaysReads (num : Numerals K) (d : NetText) (R : Reading K) : Prop :=
  ∀ base (f : NetFile K), f.Valid → d.Describes num.value base f → Reads num d base f R

theorem always_first (hd : d.Sensible num.value num.int) : AlwaysReads num d (d.byFirst num.value) := fun _ _ hV hD => reads_first hd hV hD

theorem always_prob (hd : d.Sensible num.value num.int) (hc : ∀ p ∈ d.pots, ∀ w ∈ p.parents.getD [], d.place p.child < d.place w) : AlwaysReads num d (d.prob num.value) :=
  fun _ _ hV hD => reads_prob hd hV hD hc

end Text

/-! ### the weights -/

theorem filter_prod {α : Type} (l : List α) (p : α → Prop) [DecidablePred p] (G : α → K) :
    ((l.filter (fun a => decide (¬ p a))).map G).prod * ((l.filter (fun a => decide (p a))).map G).prod = (l.map G).prod := by
  induction l with
  | nil => simp
  | cons a l ih =>
    rw [List.map_cons, List.prod_cons, ← ih]
    by_cases h : p a
    · simp only [List.filter_cons, h, not_true_eq_false, decide_false, decide_true, Bool.false_eq_true, if_false, if_true, List.map_cons, List.prod_cons]; ring
    · simp only [List.filter_cons, h, not_false_eq_true, decide_false, decide_true, Bool.false_eq_true, if_false, if_true, List.map_cons, List.prod_cons]; ring

/-- factors that are one can be left out -/
theorem prod_subset {A B : List Nat} (hA : A.Nodup) (hB : B.Nodup) (h : ∀ v ∈ A, v ∈ B) {G : Nat → K} (h1 : ∀ v ∈ B, v ∉ A → G v = 1) : (B.map G).prod = (A.map G).prod := by
  rw [← List.prod_toFinset G hA, ← List.prod_toFinset G hB]
  refine (Finset.prod_subset (fun v hv => ?_) fun v hv hn => ?_).symm
  · exact List.mem_toFinset.2 (h v (List.mem_toFinset.1 hv))
  · exact h1 v (List.mem_toFinset.1 hv) (fun h => hn (List.mem_toFinset.2 h))

/-- with all priors in use, the product of tables and priors is the product of all tables -/
theorem roots_prod {f : NetFile K} (hf : f.Valid) (hu : ∀ q ∈ f.pots, q.parents = [] → Usable (f.card q.child) q.table.data) {P : Nat → Bool}
    (hP : ∀ v, P v = true ↔ (v ∈ f.net.roots ∧ Usable (f.net.card v) (f.net.prior v))) {x : Asg} (hx : Legal f.card f.vars x) :
    f.net.tables x * (f.net.roots.map (fun v => if P v then (f.net.prior v).getD (x v) 0 else 1)).prod = (f.pots.map (fun q => f.entry q x)).prod := by
  have hfind : ∀ q ∈ f.pots, f.net.prior q.child = q.table.data := by
    intro q hq
    show (match f.pots.find? (fun r => decide (r.child = q.child)) with | some r => r.table.data | none => _) = _
    have : f.pots.find? (fun r => decide (r.child = q.child)) = some q := by
      cases h : f.pots.find? (fun r => decide (r.child = q.child)) with
      | none => exact absurd (List.find?_eq_none.1 h q hq) (by simp)
      | some r =>
        have h1 := List.mem_of_find?_eq_some h
        have h2 : r.child = q.child := by simpa using List.find?_some h
        rw [hf.distinct |> fun hd => (List.inj_on_of_nodup_map hd h1 hq h2)]
    rw [this]
  rw [← filter_prod f.pots (fun q => q.parents = []) (fun q => f.entry q x)]
  congr 1
  have hsub : ∀ v ∈ (f.pots.filter (fun q => decide (q.parents = []))).map (fun q => q.child), v ∈ f.net.roots := by
    intro v hv
    obtain ⟨q, hq, rfl⟩ := List.mem_map.1 hv
    obtain ⟨h1, h2⟩ := List.mem_filter.1 hq
    refine List.mem_filter.2 ⟨hf.child q h1, ?_⟩
    simp only [decide_eq_true_eq] at h2 ⊢
    intro r hr he
    rw [List.inj_on_of_nodup_map hf.distinct hr h1 he]
    exact h2
  have hroots : f.net.roots.Nodup := (hf.sorted.imp ne_of_lt).filter _
  rw [prod_subset (hf.distinct.sublist (List.filter_sublist.map _)) hroots hsub, List.map_map]
  · congr 1
    refine List.map_congr_left fun q hq => ?_
    obtain ⟨h1, h2⟩ := List.mem_filter.1 hq
    have h2 : q.parents = [] := by simpa using h2
    show (if P q.child then (f.net.prior q.child).getD (x q.child) 0 else 1) = f.entry q x
    have hr : q.child ∈ f.net.roots := hsub _ (List.mem_map.2 ⟨q, hq, rfl⟩)
    have : P q.child = true := by
      rw [hP, hfind q h1]
      exact ⟨hr, hu q h1 h2⟩
    rw [this, if_pos rfl, hfind q h1]
    unfold NetFile.entry Potential.at'
    obtain ⟨h3, h4⟩ := hf.shape q h1
    rw [h3, family_alone hf h1 h2]
    simp [cellOf, position]
  · intro v hv hn
    have : P v = false := by
      rw [← Bool.not_eq_true, hP]
      rintro ⟨_, i, hi, h⟩
      have hnone : f.pots.find? (fun q => decide (q.child = v)) = none := by
        rw [List.find?_eq_none]
        intro q hq he
        have he : q.child = v := by simpa using he
        have := (List.mem_filter.1 hv).2
        simp only [decide_eq_true_eq] at this
        exact hn (List.mem_map.2 ⟨q, List.mem_filter.2 ⟨hq, by simpa using this q hq he⟩, he⟩)
      have hz : f.net.prior v = List.replicate (f.card v) 0 := by
        show (match f.pots.find? (fun r => decide (r.child = v)) with | some r => r.table.data | none => _) = _
        rw [hnone]
      rw [hz] at h
      simp [List.getD_replicate] at h
    rw [this]
    rfl

/-! ### findings -/

section Findings

variable {num : Numerals K} {d : NetText} {base : Nat} {f : NetFile K}

/-- the operation on the network that enters a finding -/
def findingOp (d : NetText) (base : Nat) (t : List Char × Finding K) : Op K :=
  match t.2 with
  | .state w => .observe (base + d.place t.1) ((d.statesOf t.1).idxOf w : Nat)
  | .numbers l => .evidence (base + d.place t.1) l

/-- the numbers of a finding -/
def findingList (d : NetText) (t : List Char × Finding K) : List K :=
  match t.2 with
  | .state w => indicator (d.card t.1) ((d.statesOf t.1).idxOf w : Nat)
  | .numbers l => l

theorem statesOf_length (d : NetText) (w : List Char) : (d.statesOf w).length = d.card w := by
  unfold NetText.statesOf NetText.card
  cases d.nodes.find? (fun n => n.name == w) <;> rfl

theorem finding_step (hD : d.Describes num.value base f) {told : Findings K} (ht : d.Sound told) {t : List Char × Finding K} (h : t ∈ told) (W : World K) :
    W.step f.net (findingOp d base t) = W.enter f.net (base + d.place t.1) (findingList d t) := by
  unfold findingOp findingList World.step
  cases ht' : t.2 with
  | state w =>
    simp only
    rw [if_neg (by omega)]
    have := Props.describes_card hD (ht.nodes t h)
    show World.enter f.net W _ (indicator (f.card _) _) = _
    rw [this]
  | numbers l => rfl

theorem finding_factor {told : Findings K} (ht : d.Sound told) {t : List Char × Finding K} (h : t ∈ told) {i : Nat} (hi : i < d.card t.1) :
    (findingList d t).getD i 0 = t.2.factor (d.statesOf t.1) i := by
  unfold findingList Finding.factor
  cases ht' : t.2 with
  | state w =>
    obtain ⟨h1, h2⟩ := ht.states t h w ht'
    simp only
    unfold indicator
    rw [List.getD_eq_getElem?_getD, List.getElem?_map, List.getElem?_range hi]
    show (if (i : Int) = _ then (1 : K) else 0) = _
    have hlen : i < (d.statesOf t.1).length := by rw [statesOf_length]; exact hi
    have : ((i : Int) = ((d.statesOf t.1).idxOf w : Nat)) ↔ (d.statesOf t.1)[i]? = some w := by
      rw [List.getElem?_eq_getElem hlen, Option.some.injEq]
      constructor
      · intro he
        have he : i = (d.statesOf t.1).idxOf w := by omega
        subst he
        exact List.getElem_idxOf hlen
      · intro he
        rw [← he, h1.idxOf_getElem]
    by_cases hc : (d.statesOf t.1)[i]? = some w
    · rw [if_pos (this.2 hc), if_pos hc]
    · rw [if_neg (fun h => hc (this.1 h)), if_neg hc]
  | numbers l => rfl

/-- one variable gets evidence -/
theorem evidence_prod {vs : List Nat} (hn : vs.Nodup) {v : Nat} (hv : v ∈ vs) {card : Nat → Nat} {E : Nat → List K} (hE : E v = List.replicate (card v) 1) (e : List K) {x : Asg}
    (hx : x v < card v) : (vs.map (fun u => (Function.update E v e u).getD (x u) 0)).prod = (vs.map (fun u => (E u).getD (x u) 0)).prod * e.getD (x v) 0 := by
  have h : ∀ u, (Function.update E v e u).getD (x u) 0 = (E u).getD (x u) 0 * (if u = v then e.getD (x v) 0 else 1) := by
    intro u
    by_cases hu : u = v
    · subst hu
      rw [Function.update_self, if_pos rfl, hE]
      simp [List.getD_replicate, hx]
    · rw [Function.update_of_ne hu, if_neg hu, mul_one]
  rw [List.map_congr_left (fun u _ => h u), List.prod_map_mul]
  congr 1
  rw [← List.prod_toFinset _ hn, Finset.prod_ite_eq' _ _ (fun _ => e.getD (x v) 0), if_pos (List.mem_toFinset.2 hv)]

theorem findings_after (hV : f.Valid) (hD : d.Describes num.value base f) : ∀ (told : Findings K) (W : World K), d.Sound told →
    (∀ t ∈ told, W.evidence (base + d.place t.1) = List.replicate (f.card (base + d.place t.1)) 1) →
    (W.after f.net (told.map (findingOp d base))).present = W.present ∧
      ∀ x, Legal f.card f.vars x → (f.vars.map (fun u => ((W.after f.net (told.map (findingOp d base))).evidence u).getD (x u) 0)).prod =
        (f.vars.map (fun u => (W.evidence u).getD (x u) 0)).prod * d.support told (f.vars.map x) := by
  intro told
  induction told with
  | nil => intro W _ _; exact ⟨rfl, fun x _ => by simp [NetText.support, World.after]⟩
  | cons t told ih =>
    intro W hs hE
    have hmem : base + d.place t.1 ∈ f.vars := by
      rw [hD.vars, List.mem_range'_1]
      have := place_lt (hs.nodes t (by simp))
      omega
    obtain ⟨hd1, hd2⟩ := List.nodup_cons.1 hs.distinct
    have hs' : d.Sound told := ⟨fun u hu => hs.nodes u (by simp [hu]), hd2, fun u hu => hs.states u (by simp [hu]), fun u hu => hs.numbers u (by simp [hu])⟩
    have hstep := finding_step hD hs (List.mem_cons_self ..) W
    have hother : ∀ u ∈ told, base + d.place u.1 ≠ base + d.place t.1 := by
      intro u hu he
      have := Props.describes_inj (hs.nodes u (by simp [hu])) (hs.nodes t (by simp)) he
      exact hd1 (List.mem_map.2 ⟨u, hu, this⟩)
    have hafter : W.after f.net ((t :: told).map (findingOp d base)) =
        (W.enter f.net (base + d.place t.1) (findingList d t)).after f.net (told.map (findingOp d base)) := by
      unfold World.after
      rw [List.map_cons, List.foldl_cons, hstep]
    obtain ⟨i1, i2⟩ := ih (W.enter f.net (base + d.place t.1) (findingList d t)) hs' (by
      intro u hu
      show Function.update _ _ _ _ = _
      rw [Function.update_of_ne (hother u hu)]
      exact hE u (by simp [hu]))
    rw [hafter]
    refine ⟨?_, fun x hx => ?_⟩
    · rw [i1]
      unfold World.enter
      simp only
      rw [if_neg]
      rintro ⟨i, hi, h0, _⟩
      rw [hE t (by simp)] at h0
      simp [List.getD_replicate, show i < f.card (base + d.place t.1) from hi] at h0
    · rw [i2 x hx]
      show (f.vars.map (fun u => (Function.update W.evidence _ _ u).getD (x u) 0)).prod * _ = _
      rw [evidence_prod (hV.sorted.imp ne_of_lt) hmem (hE t (by simp)) _ (hx _ hmem)]
      unfold NetText.support
      rw [List.map_cons, List.prod_cons, stateIn_map hD x (hs.nodes t (by simp)), finding_factor hs (List.mem_cons_self ..), mul_assoc]
      rw [← Props.describes_card hD (hs.nodes t (by simp))]
      exact hx _ hmem

/-- what has been told: the priors and the findings -/
noncomputable def worldOf (d : NetText) (base : Nat) (f : NetFile K) (told : Findings K) : World K :=
  ((World.fresh f.net).step f.net (.priors false)).after f.net (told.map (findingOp d base))

theorem text_total (hd : d.Sensible num.value num.int) (hV : f.Valid) (hD : d.Describes num.value base f) (R : Reading K) (told : Findings K) :
    d.total R told = sumOver f.card f.vars (fun z => d.weight R told (f.vars.map z)) (fun _ => 0) := by
  unfold NetText.total NetText.combinations
  rw [← described_cards hd hD]
  exact choices_sum _ (hV.sorted.imp ne_of_lt) _ _

theorem text_share (hd : d.Sensible num.value num.int) (hV : f.Valid) (hD : d.Describes num.value base f) (R : Reading K) (told : Findings K) {w : List Char} (hw : ∃ n ∈ d.nodes, n.name = w)
    {i : Nat} (hi : i < d.card w) :
    d.share R told w i = sumOver f.card (f.vars.filter (· ∉ [base + d.place w])) (fun z => d.weight R told (f.vars.map z))
      (Function.update (fun _ => 0) (base + d.place w) i) := by
  unfold NetText.share NetText.combinations
  have hn : f.vars.Nodup := hV.sorted.imp ne_of_lt
  have hmem : base + d.place w ∈ f.vars := by
    rw [hD.vars, List.mem_range'_1]
    have := place_lt hw
    omega
  rw [sum_filter_map, ← described_cards hd hD, choices_sum _ hn _ (fun _ => 0),
    ← sumOver_pick hn hmem (by rw [Props.describes_card hD hw]; exact hi)]
  refine sumOver_congr' fun z => ?_
  rw [stateIn_map hD z hw]
  simp

theorem unscaled_ne (hd : d.Sensible num.value num.int) {p : PotText} (hp : p ∈ d.pots) : (unscaled d p : K) ≠ 0 := by
  unfold unscaled
  split
  · refine Nat.cast_ne_zero.2 ?_
    have h := (hd.pots p hp).names p.child (by simp)
    rw [card_place h]
    exact fun h0 => (hd.nodes _ (List.getElem_mem (place_lt h))).states (List.length_eq_zero_iff.1 h0)
  · exact one_ne_zero

/-- the product of the tables is the product of the conditional probabilities, up to a constant -/
theorem entries_prod (hd : d.Sensible num.value num.int) (hV : f.Valid) (hD : d.Describes num.value base f)
    {R : Reading K} (hc : Reads num d base f R) {x : Asg} (hx : Legal f.card f.vars x) :
    (f.pots.map (fun q => f.entry q x)).prod = (d.pots.map (unscaled d)).prod * (d.pots.map (fun p => R p (f.vars.map x))).prod := by
  rw [← List.prod_map_mul]
  congr 1
  have h := hD.pots
  rw [List.forall₂_iff_get] at h
  refine List.ext_getElem (by simp [h.1]) fun i h1 h2 => ?_
  have hi : i < d.pots.length := by simpa using h2
  have hj : i < f.pots.length := by simpa using h1
  rw [List.getElem_map, List.getElem_map]
  exact hc _ (List.getElem_mem hi) _ (List.getElem_mem hj) (h.2 i hi hj) x hx

/-- if anything is possible, the priors can be used -/
theorem priors_usable (hd : d.Sensible num.value num.int) (hV : f.Valid) (hD : d.Describes num.value base f)
    {R : Reading K} (hc : Reads num d base f R) {told : Findings K} (ht : d.total R told ≠ 0) :
    ∀ q ∈ f.pots, q.parents = [] → Usable (f.card q.child) q.table.data := by
  intro q hq hpar
  by_contra hn
  refine ht ?_
  rw [text_total hd hV hD, sumOver_legal (g := fun _ => 0) (U := f.vars) _ f.vars _ (fun v hv h => absurd hv h)]
  · exact sumOver_eq_zero fun _ _ => rfl
  intro z hz
  unfold NetText.weight
  have h0 : f.entry q z = 0 := by
    unfold NetFile.entry Potential.at'
    obtain ⟨h3, h4⟩ := hV.shape q hq
    rw [h3, family_alone hV hq hpar]
    simp only [List.map_cons, List.map_nil]
    have hlt : z q.child < f.card q.child := hz _ (hV.child q hq)
    unfold Usable at hn
    push Not at hn
    have h5 := hn (z q.child) hlt
    have hcell : cellOf [f.card q.child] q.table.data [z q.child] = q.table.data.getD (z q.child) 0 := by simp [cellOf, position]
    rw [hcell]
    refine le_antisymm h5 ?_
    rw [List.getD_eq_getElem?_getD]
    cases hg : q.table.data[z q.child]? with
    | none => exact le_refl _
    | some a => exact hV.nonneg q hq a (List.mem_of_getElem? hg)
  have hp0 : (f.pots.map (fun q => f.entry q z)).prod = 0 := List.prod_eq_zero (List.mem_map.2 ⟨q, hq, h0⟩)
  rw [entries_prod hd hV hD hc hz] at hp0
  have hk : (d.pots.map (unscaled (K := K) d)).prod ≠ 0 := by
    refine List.prod_ne_zero ?_
    intro h
    obtain ⟨p, hp, h⟩ := List.mem_map.1 h
    exact unscaled_ne hd hp h
  rw [(mul_eq_zero.1 hp0).resolve_left hk, zero_mul]

/-- the weight of an assignment, in the network and in the text -/
theorem weight_eq (hd : d.Sensible num.value num.int) (hV : f.Valid) (hD : d.Describes num.value base f)
    {R : Reading K} (hc : Reads num d base f R) {told : Findings K} (hs : d.Sound told) (ht : d.total R told ≠ 0)
    {x : Asg} (hx : Legal f.card f.vars x) :
    jointWeight f.net (worldOf d base f told) x = (d.pots.map (unscaled d)).prod * d.weight R told (f.vars.map x) := by
  obtain ⟨h1, h2⟩ := findings_after hV hD told ((World.fresh f.net).step f.net (.priors false)) hs (fun t _ => rfl)
  unfold jointWeight
  have hP : ∀ v, (worldOf d base f told).present v = true ↔ (v ∈ f.net.roots ∧ Usable (f.net.card v) (f.net.prior v)) := by
    intro v
    unfold worldOf
    rw [h1]
    unfold World.step World.fresh
    simp only [Bool.false_or, decide_eq_true_eq, true_and, Bool.false_eq_true, false_implies]
  rw [roots_prod hV (priors_usable hd hV hD hc ht) hP hx, entries_prod hd hV hD hc hx]
  show _ * (f.vars.map (fun u => ((worldOf d base f told).evidence u).getD (x u) 0)).prod = _
  unfold worldOf
  rw [h2 x hx]
  have hone : (f.vars.map (fun u => (((World.fresh f.net).step f.net (.priors false)).evidence u).getD (x u) 0)).prod = 1 := by
    refine List.prod_eq_one ?_
    intro a ha
    obtain ⟨u, hu, rfl⟩ := List.mem_map.1 ha
    show (List.replicate (f.card u) (1 : K)).getD (x u) 0 = 1
    simp [List.getD_replicate, hx u hu]
  rw [hone, one_mul]
  unfold NetText.weight
  ring

theorem unscaled_prod_ne (hd : d.Sensible num.value num.int) : (d.pots.map (unscaled (K := K) d)).prod ≠ 0 := by
  refine List.prod_ne_zero ?_
  intro h
  obtain ⟨p, hp, h⟩ := List.mem_map.1 h
  exact unscaled_ne hd hp h

/-- the answer of the network is the answer of the text -/
theorem answer_eq (hd : d.Sensible num.value num.int) (hV : f.Valid) (hD : d.Describes num.value base f)
    {R : Reading K} (hc : Reads num d base f R) {told : Findings K} (hs : d.Sound told) (ht : d.total R told ≠ 0)
    {w : List Char} (hw : ∃ n ∈ d.nodes, n.name = w) {i : Nat} (hi : i < d.card w) :
    totalWeight f.net (worldOf d base f told) ≠ 0 ∧
    stateWeight f.net (worldOf d base f told) (base + d.place w) i / totalWeight f.net (worldOf d base f told) = d.share R told w i / d.total R told := by
  have hconst : ∀ v, Indep v (fun _ : Asg => (d.pots.map (unscaled (K := K) d)).prod) := fun v x i => rfl
  have h1 : totalWeight f.net (worldOf d base f told) = (d.pots.map (unscaled d)).prod * d.total R told := by
    unfold totalWeight
    rw [text_total hd hV hD, ← sumOver_mul_left (fun v _ => hconst v)]
    exact sumOver_legal (U := f.vars) (fun z hz => weight_eq hd hV hD hc hs ht hz) f.vars _ (fun v hv h => absurd hv h)
  have h2 : stateWeight f.net (worldOf d base f told) (base + d.place w) i = (d.pots.map (unscaled d)).prod * d.share R told w i := by
    unfold stateWeight marginalWeight
    rw [text_share hd hV hD R told hw hi, ← sumOver_mul_left (fun v _ => hconst v)]
    refine sumOver_legal (U := f.vars) (fun z hz => weight_eq hd hV hD hc hs ht hz) _ _ fun v hv h => ?_
    have : v = base + d.place w := by
      by_contra hne
      exact h (List.mem_filter.2 ⟨hv, by simpa using hne⟩)
    subst this
    rw [Function.update_self, Props.describes_card hD hw]
    exact hi
  rw [h1, h2]
  refine ⟨mul_ne_zero (unscaled_prod_ne hd) ht, mul_div_mul_left _ _ (unscaled_prod_ne hd)⟩

end Findings

end Nip
