import Verif.Props.Generate
import Verif.Props.Whole
import Verif.Sample
import Verif.Spec.Sampled
import Verif.Write

/-!
# Helper lemmas: from data drawn from a network to the words written
-/

namespace Nip.Props

open Nip Res Spec

set_option linter.unusedSectionVars false
set_option synthInstance.maxSize 1000

variable {K : Type} [Field K] [LinearOrder K] [IsStrictOrderedRing K]

/-! ### the network of a complete file is proper -/

theorem map_combination {num : Numerals K} {d : NetText} {base : Nat} {f : NetFile K} (hd : d.Sensible num.value num.int) (hD : d.Describes num.value base f) {x : Asg}
    (hx : Legal f.card f.vars x) : f.vars.map x ∈ d.combinations := by
  have key : ∀ vs : List Nat, (∀ v ∈ vs, x v < f.card v) → vs.map x ∈ choices (vs.map f.card) := by
    intro vs
    induction vs with
    | nil => intro _; simp [choices]
    | cons v vs ih =>
      intro h
      simp only [List.map_cons, choices, List.mem_flatMap, List.mem_map]
      exact ⟨x v, List.mem_range.2 (h v (by simp)), vs.map x, ih (fun u hu => h u (by simp [hu])), rfl⟩
  unfold NetText.combinations
  rw [← described_cards hd hD]
  exact key f.vars hx

theorem change_prob {d : NetText} {value : List Char → K} {p : PotText} (c : List Nat) (j : Nat) :
    p.prob d value (d.change c p.child j) = p.number d value (d.change c p.child j) / ((List.range (d.card p.child)).map (fun i => p.number d value (d.change c p.child i))).sum := by
  unfold PotText.prob
  congr 3
  funext i
  unfold NetText.change
  rw [List.set_set]

theorem complete_unscaled {d : NetText} {value : List Char → K} (hC : d.Complete value) {p : PotText} (hp : p ∈ d.pots) : unscaled (K := K) d p = 1 := by
  unfold unscaled
  rw [if_neg]
  rintro ⟨h1, h2⟩
  exact hC.numbers p hp h2 h1

theorem proper_text {num : Numerals K} {d : NetText} {base : Nat} {f : NetFile K} (hd : d.Sensible num.value num.int) (hV : f.Valid) (hD : d.Describes num.value base f)
    (hc : ∀ p ∈ d.pots, ∀ w ∈ p.parents.getD [], d.place p.child < d.place w) (hC : d.Complete num.value) : f.Proper := by
  have hpots : ∀ q ∈ f.pots, ∃ p ∈ d.pots, Stored f (base + d.place p.child) (p.parents.map (fun l => l.map (fun w => base + d.place w)))
      (p.data.map (fun g => g.words.map num.value)) q := by
    intro q hq
    have h := hD.pots
    rw [List.forall₂_iff_get] at h
    obtain ⟨i, hi, rfl⟩ := List.mem_iff_getElem.1 hq
    exact ⟨_, List.getElem_mem (by rw [h.1]; exact hi), h.2 i (by rw [h.1]; exact hi) hi⟩
  have hpots' : ∀ p ∈ d.pots, ∃ q ∈ f.pots, Stored f (base + d.place p.child) (p.parents.map (fun l => l.map (fun w => base + d.place w)))
      (p.data.map (fun g => g.words.map num.value)) q := by
    intro p hp
    have h := hD.pots
    rw [List.forall₂_iff_get] at h
    obtain ⟨i, hi, rfl⟩ := List.mem_iff_getElem.1 hp
    exact ⟨_, List.getElem_mem (by rw [← h.1]; exact hi), h.2 i hi (by rw [← h.1]; exact hi)⟩
  refine ⟨?_, ?_, ?_, ?_⟩
  · intro v hv
    obtain ⟨n, hn, rfl⟩ := node_of hd hD hv
    obtain ⟨p, hp, he⟩ := hC.potentials n hn
    obtain ⟨q, hq, hst⟩ := hpots' p hp
    exact ⟨q, hq, by rw [hst.child, he]⟩
  · intro q hq x hx
    obtain ⟨p, hp, hst⟩ := hpots q hq
    have hchild := (hd.pots p hp).names p.child (by simp)
    have hcomb := hC.positive p hp _ (map_combination hd hD hx)
    have hcard := describes_card hD hchild
    have : ∀ j ∈ Finset.range (f.card q.child), f.entry q (Function.update x q.child j) = p.number d num.value (d.change (f.vars.map x) p.child j) /
        ((List.range (d.card p.child)).map (fun i => p.number d num.value (d.change (f.vars.map x) p.child i))).sum := by
      intro j hj
      have hl : Legal f.card f.vars (Function.update x q.child j) := by
        intro v hv
        by_cases h : v = q.child
        · subst h; rw [Function.update_self]; exact Finset.mem_range.1 hj
        · rw [Function.update_of_ne h]; exact hx v hv
      rw [reads_prob hd hV hD hc p hp q hq hst _ hl, complete_unscaled hC hp, one_mul, ← change_prob]
      congr 1
      rw [change_map hD x hchild, hst.child]
      refine List.map_congr_left fun v _ => ?_
      unfold withState
      by_cases h : v = base + d.place p.child
      · rw [if_pos h, h, Function.update_self]
      · rw [if_neg h, Function.update_of_ne h]
    rw [Finset.sum_congr rfl this, ← Finset.sum_div, hst.child, hcard]
    have hs : ∀ (g : Nat → K) n, ∑ j ∈ Finset.range n, g j = ((List.range n).map g).sum := fun g n => by
      induction n with
      | zero => rfl
      | succ n ih => rw [Finset.sum_range_succ, ih, List.range_succ, List.map_append, List.sum_append]; simp
    rw [hs]
    exact div_self hcomb
  · refine ⟨fun v => base + d.nodes.length - v, ?_⟩
    intro q hq u hu
    obtain ⟨p, hp, hst⟩ := hpots q hq
    rw [hst.parents, List.mem_reverse] at hu
    rw [hst.child]
    cases hq : p.parents with
    | none => rw [hq] at hu; cases hu
    | some l =>
      rw [hq] at hu
      obtain ⟨w, hw, rfl⟩ := List.mem_map.1 hu
      have h1 := hc p hp w (by rw [hq]; exact hw)
      have h2 := place_lt (d := d) ((hd.pots p hp).names w (by rw [hq]; simp [show w ∈ l from hw]))
      simp only
      omega
  · intro v hv hnext q hq he
    obtain ⟨n, hn, rfl⟩ := node_of hd hD hv
    obtain ⟨p, hp, hst⟩ := hpots q hq
    have hch : p.child = n.name := describes_inj (base := base) ((hd.pots p hp).names p.child (by simp)) ⟨n, hn, rfl⟩ (by rw [← hst.child, he])
    have := hC.free n hn (by
      intro h
      rw [hD.next n hn, h] at hnext
      exact hnext rfl) p hp hch
    rw [hst.parents, this]
    rfl

theorem proper_usable {f : NetFile K} (hV : f.Valid) (hp : f.Proper) : ∀ q ∈ f.pots, q.parents = [] → Usable (f.card q.child) q.table.data := by
  intro q hq hpar
  by_contra hn
  have hx : Legal f.card f.vars (fun _ => 0) := fun v hv => hV.states v hv
  have h := hp.normalised q hq _ hx
  rw [Finset.sum_eq_zero] at h
  · exact zero_ne_one h
  · intro j hj
    have hlt := Finset.mem_range.1 hj
    unfold NetFile.entry Potential.at'
    obtain ⟨h3, h4⟩ := hV.shape q hq
    rw [h3, family_alone hV hq hpar]
    simp only [List.map_cons, List.map_nil, Function.update_self]
    unfold Usable at hn
    push Not at hn
    have h5 := hn j hlt
    have hcell : cellOf [f.card q.child] q.table.data [j] = q.table.data.getD j 0 := by simp [cellOf, position]
    rw [hcell]
    refine le_antisymm h5 ?_
    rw [List.getD_eq_getElem?_getD]
    cases hg : q.table.data[j]? with
    | none => exact le_refl _
    | some a => exact hV.nonneg q hq a (List.mem_of_getElem? hg)

theorem stepScale_one {d : NetText} {value : List Char → K} (hC : d.Complete value) (first : Bool) : (stepScale d first : K) = 1 := by
  unfold stepScale
  refine List.prod_eq_one ?_
  intro a ha
  obtain ⟨p, hp, rfl⟩ := List.mem_map.1 ha
  split
  · exact complete_unscaled hC hp
  · rfl

/-! ### values and words -/

/-- the words for the values of a row -/
def rowText (x : VarTexts) (order : List Nat) (row : List Int) : List (List Char) := (order.zip row).map (fun q => wordFor (namesOf x) q.1 q.2)

/-- the values for the words of a line -/
def rowBack (d : NetText) (columns words : List (List Char)) : List Int := (columns.zip words).map (fun q => ((d.statesOf q.1).idxOf q.2 : Int))

/-- a state of the right variable in each place -/
def RowFits (f : NetFile K) (order : List Nat) (row : List Int) : Prop := List.Forall₂ (fun v (k : Int) => ∃ n : Nat, k = n ∧ n < f.card v) order row

theorem fitsOrder_rows {f : NetFile K} {order : List Nat} {length : Nat} {data : List (List Int)} :
    FitsOrder f order length data ↔ data.length = length ∧ ∀ row ∈ data, RowFits f order row := by
  unfold FitsOrder RowFits
  refine and_congr_right fun _ => forall₂_congr fun row _ => ?_
  rw [List.forall₂_iff_get]
  constructor
  · rintro ⟨h1, h2⟩
    refine ⟨h1.symm, fun i hi hj => ?_⟩
    obtain ⟨k, hk, hlt⟩ := h2 i order[i] (List.getElem?_eq_getElem hi)
    rw [List.getElem?_eq_getElem hj] at hk
    exact ⟨k, Option.some.inj hk, hlt⟩
  · rintro ⟨h1, h2⟩
    refine ⟨h1.symm, fun i v hv => ?_⟩
    obtain ⟨hi, rfl⟩ := List.getElem?_eq_some_iff.1 hv
    obtain ⟨k, hk, hlt⟩ := h2 i hi (by omega)
    exact ⟨k, by rw [List.getElem?_eq_getElem (by omega), ← hk]; rfl, hlt⟩

/-- what the texts of the variables have to do with the names in the file -/
structure Spelled (d : NetText) (base : Nat) (f : NetFile K) (x : VarTexts) (v : Nat) : Prop where
  node : ∃ n ∈ d.nodes, n.name = x.symbol v
  place : v = base + d.place (x.symbol v)
  states : namesOf x v = d.statesOf (x.symbol v)
  nodup : (d.statesOf (x.symbol v)).Nodup
  card : (d.statesOf (x.symbol v)).length = f.card v

theorem spelled {num : Numerals K} {d : NetText} {base : Nat} {f : NetFile K} (hd : d.Sensible num.value num.int) (hD : d.Describes num.value base f) {x : VarTexts}
    (hx : TellsNodes d base x) (hst : ∀ n ∈ d.nodes, n.states.Nodup) {v : Nat} (hv : v ∈ f.vars) : Spelled d base f x v := by
  obtain ⟨n, hn, rfl⟩ := node_of hd hD hv
  obtain ⟨h1, h2, h3⟩ := hx n hn
  have hs := statesOf_node hd hn
  refine ⟨⟨n, hn, h1.symm⟩, by rw [h1], ?_, ?_, ?_⟩
  · unfold namesOf; rw [h1, h2, hs]; rfl
  · rw [h1, hs]; exact hst n hn
  · rw [h1, hs, hD.card n hn]

section Rows

variable {d : NetText} {base : Nat} {f : NetFile K} {x : VarTexts} {order : List Nat} (hv : ∀ v ∈ order, Spelled d base f x v)

include hv

theorem rowText_fits {row : List Int} (h : RowFits f order row) : List.Forall₂ (fun c w => w ∈ d.statesOf c) (order.map x.symbol) (rowText x order row) := by
  unfold RowFits at h
  induction h with
  | nil => exact List.Forall₂.nil
  | cons hk _ ih =>
    obtain ⟨n, rfl, hn⟩ := hk
    refine List.Forall₂.cons ?_ (ih fun v h => hv v (by simp [h]))
    have hs := hv _ (List.mem_cons_self ..)
    simp only [wordFor]
    rw [if_pos (by omega), hs.states, Int.toNat_natCast, List.getD_eq_getElem _ _ (by rw [hs.card]; exact hn)]
    exact List.getElem_mem _

theorem rowBack_rowText {row : List Int} (h : RowFits f order row) : rowBack d (order.map x.symbol) (rowText x order row) = row := by
  unfold RowFits at h
  induction h with
  | nil => rfl
  | cons hk _ ih =>
    obtain ⟨n, rfl, hn⟩ := hk
    have hs := hv _ (List.mem_cons_self ..)
    refine congrArg₂ List.cons ?_ (ih fun v h => hv v (by simp [h]))
    simp only [wordFor]
    rw [if_pos (by omega), hs.states, Int.toNat_natCast, List.getD_eq_getElem _ _ (by rw [hs.card]; exact hn), hs.nodup.idxOf_getElem]

theorem rowBack_fits {words : List (List Char)} (h : List.Forall₂ (fun c w => w ∈ d.statesOf c) (order.map x.symbol) words) :
    RowFits f order (rowBack d (order.map x.symbol) words) := by
  unfold RowFits
  induction order generalizing words with
  | nil => cases h; exact List.Forall₂.nil
  | cons v order ih =>
    cases h with
    | cons h1 h2 =>
      refine List.Forall₂.cons ?_ (ih (fun v h => hv v (by simp [h])) h2)
      exact ⟨_, rfl, by rw [← (hv v (by simp)).card]; exact List.idxOf_lt_length_of_mem h1⟩

theorem rowText_rowBack {words : List (List Char)} (h : List.Forall₂ (fun c w => w ∈ d.statesOf c) (order.map x.symbol) words) :
    rowText x order (rowBack d (order.map x.symbol) words) = words := by
  induction order generalizing words with
  | nil => cases h; rfl
  | cons v order ih =>
    cases h with
    | cons h1 h2 =>
      refine congrArg₂ List.cons ?_ (ih (fun v h => hv v (by simp [h])) h2)
      simp only [wordFor]
      rw [if_pos (by omega), (hv v (by simp)).states, Int.toNat_natCast, List.getD_eq_getElem _ _ (List.idxOf_lt_length_of_mem h1), List.getElem_idxOf]

end Rows

/-- what is known of a row, in words -/
theorem known_support {num : Numerals K} {d : NetText} {base : Nat} {f : NetFile K} (hd : d.Sensible num.value num.int) (hV : f.Valid) (hD : d.Describes num.value base f)
    {x : VarTexts} {order : List Nat} (ho : order.Perm f.vars) (hv : ∀ v ∈ order, Spelled d base f x v) {words : List (List Char)}
    (h : List.Forall₂ (fun c w => w ∈ d.statesOf c) (order.map x.symbol) words) {i : Nat} (hi : i ≤ order.length) {z : Asg} (hz : Legal f.card f.vars z) :
    (f.vars.map (fun v => (vision (K := K) f.card (known order (rowBack d (order.map x.symbol) words) i) v).getD (z v) 0)).prod =
      d.support (rowTells (order.map x.symbol) (words.take i)) (f.vars.map z) := by
  have hn : order.Nodup := ho.nodup_iff.mpr (hV.sorted.imp ne_of_lt)
  have hlen : words.length = order.length := by simpa using h.length_eq.symm
  have hget : ∀ (j : Nat) (hj : j < order.length), words[j]'(by omega) ∈ d.statesOf (x.symbol order[j]) := by
    intro j hj
    have h' := h
    rw [List.forall₂_iff_get] at h'
    have := h'.2 j (by simpa using hj) (by omega)
    simpa using this
  have hinj : ∀ u ∈ order, ∀ v ∈ order, x.symbol u = x.symbol v → u = v := by
    intro u hu v hv' he
    rw [(hv u hu).place, (hv v hv').place, he]
  have hval : ∀ (j : Nat) (hj : j < order.length), j < i → known order (rowBack d (order.map x.symbol) words) i order[j] =
      ((d.statesOf (x.symbol order[j])).idxOf (words[j]'(by omega)) : Int) := by
    intro j hj hji
    unfold known
    rw [hn.idxOf_getElem, if_pos hji, List.getD_eq_getElem _ _ (by unfold rowBack; simp; omega)]
    unfold rowBack
    simp
  have htold : ∀ t ∈ rowTells (K := K) (order.map x.symbol) (words.take i), ∃ (j : Nat) (hj : j < order.length), j < i ∧ t = (x.symbol order[j], .state (words[j]'(by omega))) := by
    intro t ht
    unfold rowTells at ht
    obtain ⟨q, hq, rfl⟩ := List.mem_map.1 ht
    obtain ⟨j, hj, rfl⟩ := List.mem_iff_getElem.1 hq
    simp only [List.length_zip, List.length_map, List.length_take] at hj
    refine ⟨j, by omega, by omega, ?_⟩
    simp
  refine vision_support hV hD _ _ ?_ ?_ ?_ ?_ hd.names hz
  · have : (rowTells (K := K) (order.map x.symbol) (words.take i)).map (fun t => t.1) = (order.map x.symbol).take i := by
      unfold rowTells
      rw [List.map_map]
      show ((order.map x.symbol).zip (words.take i)).map Prod.fst = _
      refine List.ext_getElem (by simp; omega) fun j h1 h2 => ?_
      simp
    rw [this]
    refine List.Nodup.sublist (List.take_sublist _ _) ?_
    exact List.Nodup.map_on (fun a ha b hb => hinj a ha b hb) hn
  · intro t ht
    obtain ⟨j, hj, _, rfl⟩ := htold t ht
    exact (hv _ (List.getElem_mem hj)).node
  · intro t ht
    obtain ⟨j, hj, hji, rfl⟩ := htold t ht
    have hs := hv _ (List.getElem_mem hj)
    exact ⟨_, rfl, hs.nodup, hget j hj, by rw [← hs.place]; exact hval j hj hji⟩
  · intro n hn' hno
    have hin : base + d.place n.name ∈ order := ho.mem_iff.2 (of_node hD hn')
    obtain ⟨j, hj, he⟩ := List.mem_iff_getElem.1 hin
    unfold known
    rw [if_neg]
    · omega
    · rw [← he, hn.idxOf_getElem]
      intro hji
      refine hno (List.mem_map.2 ⟨(x.symbol order[j], .state (words[j]'(by omega))), ?_, ?_⟩)
      · unfold rowTells
        refine List.mem_map.2 ⟨(x.symbol order[j], words[j]'(by omega)), ?_, rfl⟩
        refine List.mem_iff_getElem.2 ⟨j, by simp; omega, by simp⟩
      · have hs := hv _ (List.getElem_mem hj)
        exact describes_inj (base := base) hs.node ⟨n, hn', rfl⟩ (by rw [← hs.place, he])

section Lines

variable {num : Numerals K} {d : NetText} {base : Nat} {f : NetFile K} (hd : d.Sensible num.value num.int) (hV : f.Valid) (hD : d.Describes num.value base f)
  (hc : ∀ p ∈ d.pots, ∀ w ∈ p.parents.getD [], d.place p.child < d.place w) (hC : d.Complete num.value) {x : VarTexts} {order : List Nat} (ho : order.Perm f.vars)
  (hv : ∀ v ∈ order, Spelled d base f x v)

include hd hV hD hc hC ho hv

/-- probabilities given the words before -/
theorem drawn_posterior {steps : Nat} {rows : List (List (List Char))} (hr : d.FitsColumns (order.map x.symbol) steps rows) {t i : Nat} (ht : t < steps) (hi : i ≤ order.length)
    {w : List Char} (hw : ∃ n ∈ d.nodes, n.name = w) :
    f.unrolledPosterior (drawnBefore order (rows.map (rowBack d (order.map x.symbol))) t i) (t + 1) t (base + d.place w) =
      d.storyPosterior (d.prob num.value) (toldBefore (order.map x.symbol) rows t i) t w := by
  obtain ⟨hlen, hfit⟩ := hr
  have hl : (toldBefore (K := K) (order.map x.symbol) rows t i).length = t + 1 := by
    unfold toldBefore
    simp
    omega
  have key := (posterior_usable (told := toldBefore (order.map x.symbol) rows t i) hd hV hD (reads_prob hd hV hD hc) (proper_usable hV (proper_text hd hV hD hc hC))
    (drawnBefore order (rows.map (rowBack d (order.map x.symbol))) t i) (by
      intro s u hs z hz
      have hst : s ≤ t := by
        have := (List.getElem?_eq_some_iff.1 hs).1
        omega
      have hrow : (rows.map (rowBack d (order.map x.symbol))).getD s [] = rowBack d (order.map x.symbol) (rows[s]'(by omega)) := by
        rw [List.getD_eq_getElem _ _ (by rw [List.length_map]; omega), List.getElem_map]
      have hmem : rows[s]'(by omega) ∈ rows := List.getElem_mem _
      by_cases hlt : s < t
      · have hd' : drawnBefore order (rows.map (rowBack d (order.map x.symbol))) t i s = known order (rowBack d (order.map x.symbol) (rows[s]'(by omega))) order.length := by
          funext v
          unfold drawnBefore
          rw [if_pos hlt, hrow]
        rw [hd', known_support hd hV hD ho hv (hfit _ hmem) (le_refl _) hz]
        have hu : u = rowTells (order.map x.symbol) (rows[s]'(by omega)) := by
          unfold toldBefore at hs
          rw [List.getElem?_append_left (by simp; omega), List.getElem?_map, List.getElem?_take, if_pos hlt, List.getElem?_eq_getElem (by omega)] at hs
          exact (Option.some.inj hs).symm
        rw [hu, List.take_of_length_le]
        have := (hfit _ hmem).length_eq
        simp at this
        omega
      · have he : s = t := by omega
        subst he
        have hd' : drawnBefore order (rows.map (rowBack d (order.map x.symbol))) s i s = known order (rowBack d (order.map x.symbol) (rows[s]'(by omega))) i := by
          funext v
          unfold drawnBefore
          rw [if_neg (lt_irrefl _), if_pos rfl, hrow]
        rw [hd', known_support hd hV hD ho hv (hfit _ hmem) hi hz]
        have hu : u = rowTells (order.map x.symbol) ((rows[s]'(by omega)).take i) := by
          unfold toldBefore at hs
          rw [List.getElem?_append_right (by simp), List.getD_eq_getElem _ _ (by omega)] at hs
          have : s - ((rows.take s).map (rowTells (K := K) (order.map x.symbol))).length = 0 := by simp; omega
          rw [this] at hs
          exact (Option.some.inj hs).symm
        rw [hu])).2 t (by omega) w hw
  rw [hl] at key
  exact key

/-- the probability of all lines -/
theorem drawn_total {steps : Nat} {rows : List (List (List Char))} (hr : d.FitsColumns (order.map x.symbol) steps rows) :
    f.unrolledTotal (drawnBefore order (rows.map (rowBack d (order.map x.symbol))) steps 0) steps (fun _ => True) =
      d.storyTotal (d.prob num.value) (rows.map (rowTells (order.map x.symbol))) := by
  obtain ⟨hlen, hfit⟩ := hr
  have key := (posterior_usable (told := rows.map (rowTells (order.map x.symbol))) hd hV hD (reads_prob hd hV hD hc) (proper_usable hV (proper_text hd hV hD hc hC))
    (drawnBefore order (rows.map (rowBack d (order.map x.symbol))) steps 0) (by
      intro s u hs z hz
      have hlt : s < rows.length := by simpa using (List.getElem?_eq_some_iff.1 hs).1
      have hd' : drawnBefore order (rows.map (rowBack d (order.map x.symbol))) steps 0 s = known order (rowBack d (order.map x.symbol) rows[s]) order.length := by
        funext v
        unfold drawnBefore
        rw [if_pos (by omega), List.getD_eq_getElem _ _ (by rw [List.length_map]; omega), List.getElem_map]
      rw [hd', known_support hd hV hD ho hv (hfit _ (List.getElem_mem _)) (le_refl _) hz]
      rw [List.getElem?_map, List.getElem?_eq_getElem hlt] at hs
      have hu := Option.some.inj hs
      rw [← hu, List.take_of_length_le]
      have := (hfit _ (List.getElem_mem hlt)).length_eq
      simp at this
      omega)).1
  rw [List.length_map, hlen] at key
  rw [key, Finset.prod_eq_one (fun s _ => stepScale_one hC _), one_mul]

/-- values in their intervals, in words -/
theorem liesIn_drawn {steps : Nat} {rows : List (List (List Char))} (hr : d.FitsColumns (order.map x.symbol) steps rows) (r : Nat → Nat → K) :
    (∀ t i, t < steps → i < order.length → LiesIn f order r (rows.map (rowBack d (order.map x.symbol))) t i) ↔ d.Drawn num.value (order.map x.symbol) r rows := by
  have hlen := hr.1
  have hrl : ∀ row ∈ rows, row.length = order.length := by
    intro row hrow
    simpa using (hr.2 row hrow).length_eq.symm
  have hback : ∀ (t : Nat) (row : List (List Char)), rows[t]? = some row → (rows.map (rowBack d (order.map x.symbol)))[t]? = some (rowBack d (order.map x.symbol) row) := by
    intro t row h
    rw [List.getElem?_map, h]
    rfl
  have hword : ∀ (row : List (List Char)) (hrow : row ∈ rows) (i : Nat) (hi : i < order.length),
      (rowBack d (order.map x.symbol) row)[i]? = some ((d.statesOf (x.symbol order[i])).idxOf (row[i]'(by rw [hrl row hrow]; exact hi)) : Int) := by
    intro row hrow i hi
    have := hrl row hrow
    unfold rowBack
    rw [List.getElem?_map, List.getElem?_eq_getElem (by simp; omega)]
    simp
  constructor
  · intro h t j row c w k h1 h2 h3 h4
    have hrow := List.mem_of_getElem? h1
    obtain ⟨ht, _⟩ := List.getElem?_eq_some_iff.1 h1
    rw [List.getElem?_map] at h2
    obtain ⟨v, hvj, rfl⟩ := Option.map_eq_some_iff.1 h2
    obtain ⟨hj, rfl⟩ := List.getElem?_eq_some_iff.1 hvj
    have hs := hv _ (List.getElem_mem hj)
    obtain ⟨hjr, rfl⟩ := List.getElem?_eq_some_iff.1 h3
    have hk : (d.statesOf (x.symbol order[j])).idxOf row[j] = k := by
      obtain ⟨hk, he⟩ := List.getElem?_eq_some_iff.1 h4
      rw [← he, hs.nodup.idxOf_getElem]
    have := h t j (by omega) hj order[j] _ k hvj (hback t row h1) (by rw [hword row hrow j hj, hk])
    rw [← drawn_posterior hd hV hD hc hC ho hv hr (by omega) (by omega) hs.node, ← hs.place]
    exact this
  · intro h t i ht hi v row k h1 h2 h3
    obtain ⟨_, rfl⟩ := List.getElem?_eq_some_iff.1 h1
    have hs := hv _ (List.getElem_mem hi)
    have htr : t < rows.length := by omega
    rw [hback t rows[t] (List.getElem?_eq_getElem htr)] at h2
    cases h2
    have hmem : rows[t] ∈ rows := List.getElem_mem htr
    rw [hword _ hmem i hi] at h3
    have hk : (d.statesOf (x.symbol order[i])).idxOf (rows[t][i]'(by rw [hrl _ hmem]; exact hi)) = k := by
      have := Option.some.inj h3
      omega
    have hin : rows[t][i]'(by rw [hrl _ hmem]; exact hi) ∈ d.statesOf (x.symbol order[i]) := by
      have h' := hr.2 _ hmem
      rw [List.forall₂_iff_get] at h'
      have := h'.2 i (by simpa using hi) (by rw [hrl _ hmem]; exact hi)
      simpa using this
    have := h t i rows[t] (x.symbol order[i]) (rows[t][i]'(by rw [hrl _ hmem]; exact hi)) k (List.getElem?_eq_getElem htr) (by rw [List.getElem?_map, h1]; rfl)
      (List.getElem?_eq_getElem _) (by rw [← hk, List.getElem?_idxOf hin])
    rw [← drawn_posterior hd hV hD hc hC ho hv hr ht (by omega) hs.node, ← hs.place] at this
    exact this

omit hd hV hD hc hC ho in
theorem rows_back {steps : Nat} {data : List (List Int)} (h : FitsOrder f order steps data) (rows : List (List (List Char))) (hr : d.FitsColumns (order.map x.symbol) steps rows) :
    data.map (rowText x order) = rows ↔ data = rows.map (rowBack d (order.map x.symbol)) := by
  have h2 := (fitsOrder_rows.1 h).2
  constructor
  · rintro rfl
    rw [List.map_map]
    conv_lhs => rw [← List.map_id data]
    refine List.map_congr_left fun row hrow => ?_
    exact (rowBack_rowText hv (h2 row hrow)).symm
  · rintro rfl
    rw [List.map_map]
    conv_rhs => rw [← List.map_id rows]
    refine List.map_congr_left fun row hrow => ?_
    exact rowText_rowBack hv (hr.2 row hrow)

omit hd hV hD hc hC ho in
theorem back_fits {steps : Nat} {rows : List (List (List Char))} (hr : d.FitsColumns (order.map x.symbol) steps rows) :
    FitsOrder f order steps (rows.map (rowBack d (order.map x.symbol))) := by
  refine fitsOrder_rows.2 ⟨by rw [List.length_map]; exact hr.1, ?_⟩
  intro row hrow
  obtain ⟨w, hw, rfl⟩ := List.mem_map.1 hrow
  exact rowBack_fits hv (hr.2 w hw)

omit hd hV hD hc hC ho in
theorem text_fits {steps : Nat} {data : List (List Int)} (h : FitsOrder f order steps data) : d.FitsColumns (order.map x.symbol) steps (data.map (rowText x order)) := by
  obtain ⟨h1, h2⟩ := fitsOrder_rows.1 h
  refine ⟨by rw [List.length_map]; exact h1, ?_⟩
  intro row hrow
  obtain ⟨w, hw, rfl⟩ := List.mem_map.1 hrow
  exact rowText_fits hv (h2 w hw)

/-- the words drawn are characterised by the intervals -/
theorem words_exactly (hT : f.Temporal) {steps : Nat} {r : Nat → Nat → K} (hr : ∀ t i, 0 < r t i ∧ r t i ≤ 1) {data : List (List Int)} (h1 : data.length = steps)
    (h2 : ∀ row ∈ data, row.length = order.length) (h3 : RowsDrawn f order r data steps) (rows : List (List (List Char))) :
    data.map (rowText x order) = rows ↔ d.FitsColumns (order.map x.symbol) steps rows ∧ d.Drawn num.value (order.map x.symbol) r rows := by
  have hfit := drawn_fits h1 h2 h3
  have hp := proper_text hd hV hD hc hC
  constructor
  · intro h
    have hr' : d.FitsColumns (order.map x.symbol) steps rows := by rw [← h]; exact text_fits hv hfit
    refine ⟨hr', (liesIn_drawn hd hV hD hc hC ho hv hr' r).1 ?_⟩
    exact ((drawn_exactly hV hT hp ho hr h1 h2 h3 _).1 ((rows_back hv hfit rows hr').1 h)).2
  · rintro ⟨hr', h⟩
    refine (rows_back hv hfit rows hr').2 ((drawn_exactly hV hT hp ho hr h1 h2 h3 _).2 ⟨back_fits hv hr', ?_⟩)
    exact (liesIn_drawn hd hV hD hc hC ho hv hr' r).2 h

end Lines

/-! ### several series, one after the other -/

/-- what is drawn with positive random numbers is possible -/
theorem drawn_possible {f : NetFile K} (hV : f.Valid) (hT : f.Temporal) (hp : f.Proper) {order : List Nat} (ho : order.Perm f.vars) {steps : Nat} {r : Nat → Nat → K}
    (hr : ∀ t i, 0 < r t i ∧ r t i ≤ 1) {data : List (List Int)} (h1 : data.length = steps) (h2 : ∀ row ∈ data, row.length = order.length) (h3 : RowsDrawn f order r data steps) :
    f.unrolledTotal (drawnBefore order data steps 0) steps (fun _ => True) ≠ 0 := by
  cases steps with
  | zero => show total f _ 0 ≠ 0; rw [total_zero]; exact one_ne_zero
  | succ t =>
    have hn : order.Nodup := ho.nodup_iff.mpr (hV.sorted.imp ne_of_lt)
    have := follows_possible hV hT hp hn (fun v hv => ho.mem_iff.mp hv) (fun t i => (hr t i).1) (drawn_fits h1 h2 h3)
      (fun t i ht hi hz => drawn_follows h3 ht hi (hr t i).2 hz) t (by omega) order.length (le_refl _)
    show total f _ (t + 1) ≠ 0
    rw [total_seen (seen' := drawnBefore order data t order.length)]
    · exact this
    · intro s hs
      funext v
      unfold drawnBefore
      rw [if_pos hs]
      by_cases e : s < t
      · rw [if_pos e]
      · rw [if_neg e, if_pos (by omega), show t = s by omega]

/-- all series of a file, from a model in any state; the data of each depend only on the random numbers for it -/
theorem sample_loop {f : NetFile K} (hV : f.Valid) (hT : f.Temporal) (hp : f.Proper) {s : Interface} (hs : IsInterface f s) (mark : Nat → Bool) {fuel : Nat}
    (hfuel : f.vars.length + 1 ≤ fuel) {m : Model K} {w : World K} (hm : Model.Holds f.net m w) (hi : InterfaceOk f.net m s) (hpar : (fun v => (m.var v).parents) = f.givens) :
    ∃ order, TopologicalOrder f.givens f.vars order ∧ ∀ steps, ∃ data : (Nat → Nat → K) → List (List Int),
      (∀ r, (∀ t i, 0 < r t i ∧ r t i ≤ 1) → (data r).length = steps ∧ (∀ row ∈ data r, row.length = order.length) ∧ RowsDrawn f order r (data r) steps) ∧
      ∀ (R : Nat → Nat → Nat → K), (∀ k t i, 0 < R k t i ∧ R k t i ≤ 1) → ∀ n, ∃ st,
        loop n (sampleSeries s fuel R steps) ([], mark, m) = ok ((List.range n).map (fun k => fullSeries f order steps (data (R k))), st) := by
  obtain ⟨order, o1, key⟩ := generate_from hV hT hp.acyclic hs mark hfuel
  refine ⟨order, o1, fun steps => ?_⟩
  have first := fun r => key mark (fun _ _ => rfl) steps r m w hm hi hpar
  choose data m' w' k1 k2 k3 k4 _ using first
  refine ⟨data, fun r _ => ⟨k2 r, k3 r, k4 r⟩, ?_⟩
  intro R hR n
  obtain ⟨st, e1, e2, _⟩ := loop_inv (n := n) (f := sampleSeries s fuel R steps) (s := (([], mark, m) : List TimeSeries × (Nat → Bool) × Model K))
    (fun k st => st.1 = (List.range k).map (fun k => fullSeries f order steps (data (R k))) ∧ (∀ v, v ∉ f.vars → st.2.1 v = mark v) ∧
      (∃ w, Model.Holds f.net st.2.2 w) ∧ InterfaceOk f.net st.2.2 s ∧ (fun v => (st.2.2.var v).parents) = f.givens)
    ⟨rfl, fun _ _ => rfl, ⟨w, hm⟩, hi, hpar⟩ (by
      rintro k hk ⟨set, mk, m1⟩ ⟨h1, h2, ⟨w1, h3⟩, h4, h5⟩
      obtain ⟨data1, m2, w2, g1, g2, g3, g4, g5, g6, g7⟩ := key mk h2 steps (R k) m1 w1 h3 h4 h5
      refine ⟨_, by unfold sampleSeries; rw [g1, ok_bind], ?_, ?_, ⟨w2, g5⟩, g6, g7⟩
      · simp only at h1 ⊢
        rw [h1, List.range_succ, List.map_append, List.map_singleton]
        congr 2
        have e1 := (drawn_exactly hV hT hp o1.1 (hR k) (k2 (R k)) (k3 (R k)) (k4 (R k)) (data (R k))).1 rfl
        have e2 := (drawn_exactly hV hT hp o1.1 (hR k) g2 g3 g4 (data (R k))).2 e1
        rw [e2]
      · intro v hv
        simp only
        rw [if_neg (by rw [g5.sound.vars]; exact hv)]
        exact h2 v hv)
  obtain ⟨a, b⟩ := st
  exact ⟨b, by rw [e1]; simp only at e2; rw [e2]⟩

/-! ### the file written -/

theorem lookup_row (order : List Nat) (hn : order.Nodup) (row : List Int) (h : row.length = order.length) (g : Nat → Int → List Char) :
    order.map (fun v => g v (((order.zip row).lookup v).getD (-1))) = (order.zip row).map (fun q => g q.1 q.2) := by
  induction order generalizing row with
  | nil => rfl
  | cons v order ih =>
    cases row with
    | nil => cases h
    | cons a row =>
      rw [List.nodup_cons] at hn
      rw [List.map_cons, List.zip_cons_cons, List.map_cons, List.lookup_cons_self]
      refine congrArg₂ List.cons rfl ?_
      rw [← ih hn.2 row (by simpa using h)]
      refine List.map_congr_left fun u hu => ?_
      have : (u == v) = false := by
        rw [beq_eq_false_iff_ne]
        rintro rfl
        exact hn.1 hu
      rw [List.lookup_cons, this]

theorem joinFields_line : ∀ ws : List (List Char), joinFields ws = List.intercalate [','] ws := by
  intro ws
  induction ws with
  | nil => rfl
  | cons w ws ih =>
    cases ws with
    | nil => simp [joinFields, List.intercalate]
    | cons v ws =>
      rw [joinFields, ih]
      simp [List.intercalate, fieldSeparator]

theorem unlines_flatMap {α : Type} (l : List α) (g : α → List (List Char)) : unlines (l.flatMap g) = (l.map (fun a => unlines (g a))).flatten := by
  induction l with
  | nil => rfl
  | cons a l ih => rw [List.flatMap_cons, unlines_append, ih, List.map_cons, List.flatten_cons]

/-- the file for series without hidden variables and with the same columns -/
theorem write_full {f : NetFile K} {x : VarTexts} (hm : x.Model f.vars) (hcard : ∀ v ∈ f.vars, x.card v = f.card v) (hne : f.vars ≠ []) {order : List Nat} (ho : order.Perm f.vars)
    {steps : Nat} {set : List (List (List Int))} (hs : set ≠ []) (h : ∀ data ∈ set, FitsOrder f order steps data) :
    writeTimeseries x (set.map (fullSeries f order steps)) =
      ok (0, some (dataText (order.map x.symbol) (set.map (fun data => data.map (rowText x order))))) := by
  have hn : order.Nodup := ho.nodup_iff.mpr hm.nodup
  have hwf : ∀ data ∈ set, (fullSeries f order steps data).WellFormed := by
    intro data hdata
    obtain ⟨h1, h2⟩ := h data hdata
    refine ⟨rfl, ?_, h1, fun row hrow => (h2 row hrow).1⟩
    show (f.vars.length : Int) - (0 : Int) = order.length
    rw [ho.length_eq]
    omega
  have hnamed : ∀ v ∈ f.vars, x.Named v (namesOf x v) := by
    intro v hv
    obtain ⟨names, hn⟩ := hm.named v hv
    have : namesOf x v = names := by unfold namesOf; rw [hn.1]; rfl
    rw [this]
    exact hn
  obtain ⟨U, u1, _, _, u4⟩ := writeTimeseries_union x f.vars (namesOf x) hnamed (set.map (fullSeries f order steps)) (by
    intro ts hts
    obtain ⟨data, hdata, rfl⟩ := List.mem_map.1 hts
    obtain ⟨h1, h2⟩ := h data hdata
    refine ⟨hwf data hdata, hn, fun v hv => ho.mem_iff.1 hv, ?_⟩
    intro t k v row a ht hk hv
    obtain ⟨n, g1, g2⟩ := (h2 row (List.mem_of_getElem? ht)).2 k v hv
    rw [hk] at g1
    cases g1
    rw [hcard v (ho.mem_iff.1 (List.mem_of_getElem? hv))]
    omega)
  have hU : U = order := by
    rw [observedUnion_same (by simpa using hs) hn (by
      intro ts hts
      obtain ⟨data, hdata, rfl⟩ := List.mem_map.1 hts
      exact ⟨hwf data hdata, rfl⟩)] at u1
    have := (Prod.mk.inj (Res.ok.inj u1)).1
    exact (List.map_injective_iff.2 (Option.some_injective _) this).symm
  subst hU
  rw [u4, if_neg (by intro h0; rw [h0] at ho; exact hne (List.Perm.nil_eq ho).symm)]
  congr 3
  unfold allLines dataText line
  rw [show ∀ (a : List Char) l, unlines (a :: l) = (a ++ ['\n']) ++ unlines l from fun a l => rfl, joinFields_line, unlines_flatMap, List.map_map, List.map_map]
  congr 2
  refine List.map_congr_left fun data hdata => ?_
  simp only [Function.comp_def]
  rw [unlines_append]
  congr 1
  unfold unlines seriesLines
  rw [List.map_map, List.map_map]
  congr 1
  refine List.map_congr_left fun row hrow => ?_
  simp only [Function.comp_def]
  rw [joinFields_line]
  unfold rowWords rowText
  rw [← lookup_row U hn row ((h data hdata).2 row hrow).1]
  rfl

end Nip.Props
