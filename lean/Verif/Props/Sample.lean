import Verif.SampleLemmas

/-!
# C89: `nipsample` from the network file to the data file

The specification is about texts only: `Verif/Spec/HuginNet.lean` (what a network file says), `Verif/Spec/Story.lean` (probabilities),
`Verif/Spec/Sampled.lean` (lines drawn) and `Verif/Spec/Lines.lean` (what is written).
-/

namespace Nip.Props

open Nip Res Spec

set_option linter.unusedSectionVars false
set_option synthInstance.maxSize 1000

variable {K : Type} [Field K] [LinearOrder K] [IsStrictOrderedRing K]

/-- Network files with which `nipsample` does what it should: see `GoodFiles`; and the file gives a probability to every story. -/
structure GoodNet (num : Numerals K) (d : NetText) (net : List Char) : Prop where
  sensible : d.Sensible num.value num.int
  laidOut : LaidOut d net
  short : ShortTexts d
  labels : LabelsLast d
  order : ∀ p ∈ d.pots, ∀ w ∈ p.parents.getD [], d.place p.child < d.place w
  temporal : d.Temporal
  states : ∀ n ∈ d.nodes, n.states.Nodup
  complete : d.Complete num.value

theorem openedModel {num : Numerals K} {d : NetText} {net : List Char} (h : GoodNet num d net) (ptr : Nat) {s : Session K} (hr : s.lex.readLine = true) (hg : s.g.Fresh) :
    ∃ q i, openModel num ptr s net = ok (some (q, i)) ∧ q.file.Valid ∧ q.file.Temporal ∧ d.Describes num.value s.g.nextId q.file ∧
      Model.Holds q.file.net q.model (World.fresh q.file.net) ∧ InterfaceOk q.file.net q.model i ∧ IsInterface q.file i ∧
      (fun v => (q.model.var v).parents) = q.file.givens ∧ TellsNodes d s.g.nextId q.texts := by
  have hne : d.pots ≠ [] := by
    obtain ⟨n, hn⟩ := List.exists_mem_of_ne_nil _ h.sensible.nonempty
    obtain ⟨p, hp, _⟩ := h.complete.potentials n hn
    exact List.ne_nil_of_mem hp
  obtain ⟨r, e, h1, hV, hD, hb, hid, htx, _⟩ := C68_reads_partial h.sensible h.laidOut h.short hne h.labels ptr s hr hg
  have hT := temporal_text h.sensible hD h.temporal
  obtain ⟨m, i, h2, h3, h4, h5, h6, h7⟩ := interface_spec ptr hV hT
  obtain ⟨mb, b1, _, b3, _⟩ := build_spec ptr hV
  rw [hb] at h3 b1
  cases h3
  cases b1
  have hi : NetFile.interface r.file r.model = ok i := by
    unfold NetFile.parseModel at h2
    rw [hb, ok_bind] at h2
    simp only at h2
    cases hi : NetFile.interface r.file r.model with
    | ub => rw [hi] at h2; cases h2
    | ok j => rw [hi] at h2; cases h2; rfl
  refine ⟨r, i, ?_, hV, hT, hD, h4, h5, ⟨h6, h7⟩, ?_, texts_tell hD hid htx h.sensible⟩
  · unfold openModel
    rw [h1]
    simp only [ok_bind]
    rw [hi]
    rfl
  · funext v
    rw [(b3 v).1, givens_eq]

/-- What the lines drawn with random numbers in `U` should be: possible, and those in which each word is the one in whose interval the random number lies. -/
def RowsRight (num : Numerals K) (d : NetText) (U : Set K) (columns : List (List Char)) (steps : Nat) (rows : (Nat → Nat → K) → List (List (List Char))) : Prop :=
  ∀ r, (∀ t j, r t j ∈ U) → d.storyTotal (d.prob num.value) ((rows r).map (rowTells columns)) ≠ 0 ∧
    ∀ w, rows r = w ↔ d.FitsColumns columns steps w ∧ d.Drawn num.value columns r w

variable [FloorRing K]

/-- What `nipsample` should write with random numbers in `U`: columns for all nodes, parents before children; for each series the lines that follow from the random
numbers for this series. -/
def SamplesRight (num : Numerals K) (d : NetText) (net : List Char) (U : Set K) : Prop :=
  ∀ (ptr : Nat) (s : Session K), s.lex.readLine = true → s.g.Fresh → ∀ (mark : Nat → Bool) (fuel : Nat), d.nodes.length + 1 ≤ fuel →
    ∃ columns : List (List Char), columns.Perm (d.nodes.map (fun n => n.name)) ∧ d.ParentsFirst columns ∧
      ∀ steps, ∃ rows, RowsRight num d U columns steps rows ∧
        ∀ (a b : K) (n : Nat), IsCount a n → 1 ≤ n → IsCount b steps → ∀ R : Nat → Nat → Nat → K, (∀ k t j, R k t j ∈ U) →
          sampleMain num ptr s mark fuel R net true (some a) (some b) = ok (0, some (dataText columns ((List.range n).map (fun k => rows (R k)))))

variable (K) in
/-- **C89** in full: every network file that makes sense and gives a probability to every story, and all random numbers from 0 to 1. -/
def C89_full : Prop := ∀ (num : Numerals K) (d : NetText) (net : List Char), d.Sensible num.value num.int → LaidOut d net → d.Complete num.value →
  SamplesRight num d net (Set.Icc 0 1)

theorem countArgument_is {a : K} {n : Nat} (h : IsCount a n) : countArgument (some a) = ok (some n) := by
  obtain ⟨h1, h2, h3, h4⟩ := h
  unfold countArgument
  simp only
  rw [if_neg (by
    rintro (h | h)
    · have : (-2147483649 : K) < 0 := by norm_num
      linarith
    · have : (1000000 : K) < 2147483648 := by norm_num
      linarith), if_neg (by
    rintro (h | h) <;> linarith), (Nat.floor_eq_iff h1.le).2 ⟨h3, h4⟩]

/-- what the program does, with the numbers of the model -/
theorem sample_core {num : Numerals K} {d : NetText} {net : List Char} (h : GoodNet num d net) (ptr : Nat) {s : Session K} (hr : s.lex.readLine = true) (hg : s.g.Fresh)
    (mark : Nat → Bool) {fuel : Nat} (hfuel : d.nodes.length + 1 ≤ fuel) :
    ∃ (q : ReadModel K) (order : List Nat), q.file.Valid ∧ q.file.Temporal ∧ d.Describes num.value s.g.nextId q.file ∧ TellsNodes d s.g.nextId q.texts ∧
      TopologicalOrder q.file.givens q.file.vars order ∧ (∀ v ∈ order, Spelled d s.g.nextId q.file q.texts v) ∧
      ∀ steps, ∃ data : (Nat → Nat → K) → List (List Int),
        (∀ r : Nat → Nat → K, (∀ t i, 0 < r t i ∧ r t i ≤ 1) →
          (data r).length = steps ∧ (∀ row ∈ data r, row.length = order.length) ∧ RowsDrawn q.file order r (data r) steps) ∧
        ∀ (a b : K) (n : Nat), IsCount a n → 1 ≤ n → IsCount b steps → ∀ R : Nat → Nat → Nat → K, (∀ k t j, 0 < R k t j ∧ R k t j ≤ 1) →
          sampleMain num ptr s mark fuel R net true (some a) (some b) =
            ok (0, some (dataText (order.map q.texts.symbol) ((List.range n).map (fun k => (data (R k)).map (rowText q.texts order))))) := by
  obtain ⟨q, i, h1, hV, hT, hD, h4, h5, h6, h7, hx⟩ := openedModel h ptr hr hg
  have hp := proper_text h.sensible hV hD h.order h.complete
  obtain ⟨hm, hcard⟩ := texts_model h.sensible hV hD hx
  have hlen : q.file.vars.length = d.nodes.length := by rw [hD.vars, List.length_range']
  obtain ⟨order, o1, key⟩ := sample_loop (fuel := fuel) hV hT hp h6 mark (by rw [hlen]; exact hfuel) h4 h5 h7
  have hv : ∀ v ∈ order, Spelled d s.g.nextId q.file q.texts v := fun v hv => spelled h.sensible hD hx h.states (o1.1.mem_iff.1 hv)
  refine ⟨q, order, hV, hT, hD, hx, o1, hv, ?_⟩
  intro steps
  obtain ⟨data, k1, k2⟩ := key steps
  refine ⟨data, k1, ?_⟩
  intro a b n ha hn hb R hR
  obtain ⟨st, e⟩ := k2 R hR n
  unfold sampleMain
  rw [h1, ok_bind]
  simp only [Bool.true_eq_false, if_false]
  rw [countArgument_is ha, ok_bind]
  simp only
  rw [countArgument_is hb, ok_bind]
  simp only
  unfold sampleFile
  rw [e, ok_bind]
  have hw := write_full hm hcard (by rw [← List.length_pos_iff, hlen, List.length_pos_iff]; exact h.sensible.nonempty) o1.1 (steps := steps)
    (set := (List.range n).map (fun k => data (R k))) (by simp; omega) (by
      intro D hD
      obtain ⟨k, _, rfl⟩ := List.mem_map.1 hD
      obtain ⟨g1, g2, g3⟩ := k1 _ (hR k)
      exact drawn_fits g1 g2 g3)
  rw [List.map_map] at hw
  simp only
  rw [show (List.range n).map (fun k => fullSeries q.file order steps (data (R k))) = (List.range n).map (fullSeries q.file order steps ∘ fun k => data (R k)) from rfl,
    hw, ok_bind, List.map_map]
  rfl

omit [FloorRing K] in
theorem columns_right {num : Numerals K} {d : NetText} {net : List Char} (h : GoodNet num d net) {base : Nat} {f : NetFile K} {x : VarTexts} (hV : f.Valid)
    (hD : d.Describes num.value base f) (hx : TellsNodes d base x) {order : List Nat} (o1 : TopologicalOrder f.givens f.vars order) (hv : ∀ v ∈ order, Spelled d base f x v) :
    (order.map x.symbol).Perm (d.nodes.map (fun n => n.name)) ∧ d.ParentsFirst (order.map x.symbol) := by
  constructor
  · have := o1.1.map x.symbol
    rw [vars_nodes h.sensible hD, List.map_map] at this
    refine this.trans (List.Perm.of_eq (List.map_congr_left fun n hn => ?_))
    exact (hx n hn).1
  · intro a c b he p hpp hch w hw
    obtain ⟨a', t', e1, rfl, e2⟩ := List.map_eq_append_iff.1 he
    obtain ⟨v, b', rfl, rfl, rfl⟩ := List.map_eq_cons_iff.1 e2
    have hs := hv v (by rw [e1]; simp)
    have hwn := (h.sensible.pots p hpp).names w (by simp [hw])
    have hin : base + d.place w ∈ a' := by
      refine o1.2 a' v b' e1 _ ?_
      rw [givens_eq, mem_parentsOf hV]
      have hpots := hD.pots
      rw [List.forall₂_iff_get] at hpots
      obtain ⟨j, hj, rfl⟩ := List.mem_iff_getElem.1 hpp
      have hj' : j < f.pots.length := by rw [← hpots.1]; exact hj
      have hst := hpots.2 j hj hj'
      simp only [List.get_eq_getElem] at hst
      refine ⟨_, List.getElem_mem hj', by rw [hst.child, hch, ← hs.place], ?_⟩
      rw [hst.parents, List.mem_reverse]
      cases hq : d.pots[j].parents with
      | none => rw [hq] at hw; cases hw
      | some l =>
        rw [hq] at hw
        exact List.mem_map.2 ⟨w, hw, rfl⟩
    obtain ⟨n, hn, rfl⟩ := hwn
    exact List.mem_map.2 ⟨_, hin, (hx n hn).1⟩

/-- **C89** (partial): for good network files and random numbers above zero.  What is missing: random numbers equal to zero and files that are not good, for which
it is false (`C89_refuted`; late parents: C47, labels: C68). -/
theorem C89_lines_partial {num : Numerals K} {d : NetText} {net : List Char} (h : GoodNet num d net) : SamplesRight num d net (Set.Ioc 0 1) := by
  intro ptr s hr hg mark fuel hfuel
  obtain ⟨q, order, hV, hT, hD, hx, o1, hv, key⟩ := sample_core h ptr hr hg mark hfuel
  have hp := proper_text h.sensible hV hD h.order h.complete
  obtain ⟨hc1, hc2⟩ := columns_right h hV hD hx o1 hv
  refine ⟨order.map q.texts.symbol, hc1, hc2, ?_⟩
  intro steps
  obtain ⟨data, k1, k2⟩ := key steps
  refine ⟨fun r => (data r).map (rowText q.texts order), ?_, k2⟩
  intro r hr
  obtain ⟨g1, g2, g3⟩ := k1 r hr
  have hfit := drawn_fits g1 g2 g3
  refine ⟨?_, fun w => words_exactly h.sensible hV hD h.order h.complete o1.1 hv hT hr g1 g2 g3 w⟩
  rw [← drawn_total h.sensible hV hD h.order h.complete o1.1 hv (text_fits hv hfit), ← (rows_back hv hfit _ (text_fits hv hfit)).1 rfl]
  exact drawn_possible hV hT hp o1.1 hr g1 g2 g3

/-! ### different data are written differently -/

/-- a character that separates words -/
def Separates (c : Char) : Prop := c = ',' ∨ c = '\n'

theorem word_end {u v : List Char} (hu : ∀ c ∈ u, ¬ Separates c) (hv : ∀ c ∈ v, ¬ Separates c) {a b : Char} {s t : List Char} (ha : Separates a) (hb : Separates b)
    (h : u ++ a :: s = v ++ b :: t) : u = v ∧ a :: s = b :: t := by
  induction u generalizing v with
  | nil =>
    cases v with
    | nil => exact ⟨rfl, h⟩
    | cons c v =>
      have := (List.cons.inj h).1
      exact absurd (this ▸ ha) (hv c (by simp))
  | cons c u ih =>
    cases v with
    | nil =>
      have := (List.cons.inj h).1
      exact absurd (this ▸ hb) (hu c (by simp))
    | cons c' v =>
      obtain ⟨h1, h2⟩ := List.cons.inj h
      obtain ⟨e1, e2⟩ := ih (fun x hx => hu x (by simp [hx])) (fun x hx => hv x (by simp [hx])) h2
      exact ⟨by rw [h1, e1], e2⟩

theorem line_cons_cons (x y : List Char) (w : List (List Char)) : line (x :: y :: w) = x ++ ',' :: line (y :: w) := by
  unfold line
  simp [List.intercalate]

theorem line_inj {w1 w2 : List (List Char)} (h1 : ∀ x ∈ w1, ∀ c ∈ x, ¬ Separates c) (h2 : ∀ x ∈ w2, ∀ c ∈ x, ¬ Separates c) (hl : w1.length = w2.length) {a b : List Char}
    (h : line w1 ++ a = line w2 ++ b) : w1 = w2 ∧ a = b := by
  induction w1 generalizing w2 with
  | nil =>
    cases w2 with
    | nil => exact ⟨rfl, List.append_cancel_left h⟩
    | cons y w2 => cases hl
  | cons x w1 ih =>
    cases w2 with
    | nil => cases hl
    | cons y w2 =>
      cases w1 with
      | nil =>
        cases w2 with
        | nil =>
          simp only [line, List.intercalate_singleton, List.append_assoc, List.cons_append, List.nil_append] at h
          obtain ⟨e1, e2⟩ := word_end (h1 x (by simp)) (h2 y (by simp)) (Or.inr rfl) (Or.inr rfl) h
          exact ⟨by rw [e1], (List.cons.inj e2).2⟩
        | cons _ _ => simp at hl
      | cons x' w1 =>
        cases w2 with
        | nil => simp at hl
        | cons y' w2 =>
          rw [line_cons_cons, line_cons_cons, List.append_assoc, List.append_assoc, List.cons_append, List.cons_append] at h
          obtain ⟨e1, e2⟩ := word_end (h1 x (by simp)) (h2 y (by simp)) (Or.inl rfl) (Or.inl rfl) h
          obtain ⟨e3, e4⟩ := ih (fun z hz => h1 z (by simp [hz])) (fun z hz => h2 z (by simp [hz])) (by simpa using hl) (List.cons.inj e2).2
          exact ⟨by rw [e1, e3], e4⟩

theorem lines_inj {n : Nat} {r1 r2 : List (List (List Char))} (h1 : ∀ w ∈ r1, w.length = n ∧ ∀ x ∈ w, ∀ c ∈ x, ¬ Separates c)
    (h2 : ∀ w ∈ r2, w.length = n ∧ ∀ x ∈ w, ∀ c ∈ x, ¬ Separates c) (hl : r1.length = r2.length) {a b : List Char}
    (h : (r1.map line).flatten ++ a = (r2.map line).flatten ++ b) : r1 = r2 ∧ a = b := by
  induction r1 generalizing r2 with
  | nil =>
    cases r2 with
    | nil => exact ⟨rfl, h⟩
    | cons y w2 => cases hl
  | cons x r1 ih =>
    cases r2 with
    | nil => cases hl
    | cons y r2 =>
      simp only [List.map_cons, List.flatten_cons, List.append_assoc] at h
      have hx := h1 x (by simp)
      have hy := h2 y (by simp)
      obtain ⟨e1, e2⟩ := line_inj hx.2 hy.2 (by rw [hx.1, hy.1]) h
      obtain ⟨e3, e4⟩ := ih (fun z hz => h1 z (by simp [hz])) (fun z hz => h2 z (by simp [hz])) (by simpa using hl) e2
      exact ⟨by rw [e1, e3], e4⟩

theorem dataText_inj {m n : Nat} {header : List (List Char)} {s1 s2 : List (List (List (List Char)))} 
    (h1 : ∀ r ∈ s1, r.length = m ∧ ∀ w ∈ r, w.length = n ∧ ∀ x ∈ w, ∀ c ∈ x, ¬ Separates c)
    (h2 : ∀ r ∈ s2, r.length = m ∧ ∀ w ∈ r, w.length = n ∧ ∀ x ∈ w, ∀ c ∈ x, ¬ Separates c) (hl : s1.length = s2.length) 
    (h : dataText header s1 = dataText header s2) : s1 = s2 := by
  unfold dataText at h
  replace h := List.append_cancel_left h
  induction s1 generalizing s2 with
  | nil =>
    cases s2 with
    | nil => rfl
    | cons y w2 => cases hl
  | cons x r1 ih =>
    cases s2 with
    | nil => cases hl
    | cons y r2 =>
      simp only [List.map_cons, List.flatten_cons, List.append_assoc] at h
      have hx := h1 x (by simp)
      have hy := h2 y (by simp)
      obtain ⟨e1, e2⟩ := lines_inj hx.2 hy.2 (by rw [hx.1, hy.1]) h
      rw [e1, ih (fun z hz => h1 z (by simp [hz])) (fun z hz => h2 z (by simp [hz])) (by simpa using hl) (List.append_cancel_left e2)]

/-! ### probabilities -/

/-- random numbers for each series, each time step and each column; the others are never used -/
def laidOutSeries {n steps m : Nat} (R : Fin n → Fin steps → Fin m → ℝ) (k : Nat) : Nat → Nat → ℝ := if h : k < n then laidOut (R ⟨k, h⟩) else fun _ _ => 1

theorem laidOut_good {steps m : Nat} {r : Fin steps → Fin m → ℝ} (h : ∀ t j, 0 < r t j ∧ r t j ≤ 1) (t j : Nat) : 0 < laidOut r t j ∧ laidOut r t j ≤ 1 := by
  unfold laidOut
  split
  · exact h _ _
  · exact ⟨one_pos, le_refl _⟩

theorem laidOutSeries_good {n steps m : Nat} {R : Fin n → Fin steps → Fin m → ℝ} (h : ∀ k t j, 0 < R k t j ∧ R k t j ≤ 1) (k t j : Nat) :
    0 < laidOutSeries R k t j ∧ laidOutSeries R k t j ≤ 1 := by
  unfold laidOutSeries
  split
  · exact laidOut_good (h _) t j
  · exact ⟨one_pos, le_refl _⟩

open MeasureTheory in
theorem drawn_volume_length {f : NetFile ℝ} (hf : f.Valid) (htm : f.Temporal) (hp : f.Proper) {order : List Nat} (ho : order.Perm f.vars) {length m : Nat} (hm : m = order.length)
    {data : (Nat → Nat → ℝ) → List (List Int)} (h3 : ∀ r, (∀ t i, 0 < r t i ∧ r t i ≤ 1) → ∀ d, data r = d ↔
        FitsOrder f order length d ∧ ∀ t i, t < length → i < order.length → LiesIn f order r d t i) {d : List (List Int)} (hd : FitsOrder f order length d) :
    volume {r : Fin length → Fin m → ℝ | (∀ t i, 0 < r t i ∧ r t i ≤ 1) ∧ data (laidOut r) = d} =
      ENNReal.ofReal (f.unrolledTotal (drawnBefore order d length 0) length (fun _ => True)) := by
  subst hm
  exact drawn_volume hf htm hp ho h3 hd

open MeasureTheory in
/-- **C89**, as a statement about probability: if the random numbers are independent and uniform between zero and one, the probability that `nipsample` writes given
lines is the product of the probabilities of the series, as stories that the network file tells.  (The probability of an event is the volume of the random numbers for
which it happens.)  What is missing: see `C89_lines_partial`; names of states with commas or ends of lines, with which different data can look alike. -/
theorem C89_distribution_partial {num : Numerals ℝ} {d : NetText} {net : List Char} (h : GoodNet num d net)
    (hn : ∀ n ∈ d.nodes, ∀ s ∈ n.states, ∀ c ∈ s, ¬ Separates c) (ptr : Nat) {s : Session ℝ} (hr : s.lex.readLine = true) (hg : s.g.Fresh) (mark : Nat → Bool) {fuel : Nat}
    (hfuel : d.nodes.length + 1 ≤ fuel) :
    ∃ columns : List (List Char), columns.Perm (d.nodes.map (fun n => n.name)) ∧ d.ParentsFirst columns ∧
      ∀ (a b : ℝ) (n steps : Nat), IsCount a n → 1 ≤ n → IsCount b steps → ∀ w : Fin n → List (List (List Char)), (∀ k, d.FitsColumns columns steps (w k)) →
        volume {R : Fin n → Fin steps → Fin columns.length → ℝ | (∀ k t j, 0 < R k t j ∧ R k t j ≤ 1) ∧
          sampleMain num ptr s mark fuel (laidOutSeries R) net true (some a) (some b) = ok (0, some (dataText columns (List.ofFn w)))} =
        ENNReal.ofReal (∏ k, d.storyTotal (d.prob num.value) ((w k).map (rowTells columns))) := by
  obtain ⟨q, order, hV, hT, hD, hx, o1, hv, key⟩ := sample_core h ptr hr hg mark hfuel
  have hp := proper_text h.sensible hV hD h.order h.complete
  obtain ⟨hc1, hc2⟩ := columns_right h hV hD hx o1 hv
  refine ⟨order.map q.texts.symbol, hc1, hc2, ?_⟩
  intro a b n steps ha hn1 hb w hw
  obtain ⟨data, k1, k2⟩ := key steps
  have hclean : ∀ rows, d.FitsColumns (order.map q.texts.symbol) steps rows →
      rows.length = steps ∧ ∀ u ∈ rows, u.length = (order.map q.texts.symbol).length ∧ ∀ x ∈ u, ∀ c ∈ x, ¬ Separates c := by
    intro rows hf
    refine ⟨hf.1, fun u hu => ⟨(hf.2 u hu).length_eq.symm, ?_⟩⟩
    intro x hx
    obtain ⟨j, hj, rfl⟩ := List.mem_iff_getElem.1 hx
    have hf2 := hf.2 u hu
    rw [List.forall₂_iff_get] at hf2
    have hj' : j < (order.map q.texts.symbol).length := by rw [hf2.1]; exact hj
    have := hf2.2 j hj' hj
    simp only [List.get_eq_getElem] at this
    obtain ⟨nd, hnd, hnm⟩ := List.mem_map.1 (hc1.mem_iff.1 (List.getElem_mem hj'))
    rw [← hnm, statesOf_node h.sensible hnd] at this
    exact hn nd hnd _ this
  have hfits : ∀ r : Nat → Nat → ℝ, (∀ t i, 0 < r t i ∧ r t i ≤ 1) → FitsOrder q.file order steps (data r) := by
    intro r hr
    obtain ⟨g1, g2, g3⟩ := k1 r hr
    exact drawn_fits g1 g2 g3
  have hbox : {R : Fin n → Fin steps → Fin (order.map q.texts.symbol).length → ℝ | (∀ k t j, 0 < R k t j ∧ R k t j ≤ 1) ∧
      sampleMain num ptr s mark fuel (laidOutSeries R) net true (some a) (some b) = ok (0, some (dataText (order.map q.texts.symbol) (List.ofFn w)))} =
      Set.univ.pi (fun k : Fin n => {r : Fin steps → Fin (order.map q.texts.symbol).length → ℝ | (∀ t j, 0 < r t j ∧ r t j ≤ 1) ∧
        data (laidOut r) = (w k).map (rowBack d (order.map q.texts.symbol))}) := by
    ext R
    simp only [Set.mem_ofPred_eq, Set.mem_pi, Set.mem_univ, true_imp_iff]
    have hse : ∀ k : Fin n, laidOutSeries R k = laidOut (R k) := by
      intro k
      unfold laidOutSeries
      rw [dif_pos k.2]
    constructor
    · rintro ⟨hR, he⟩ k
      rw [k2 a b n ha hn1 hb _ (laidOutSeries_good hR)] at he
      have he2 := Option.some.inj (Prod.mk.inj (Res.ok.inj he)).2
      have he3 := dataText_inj (m := steps) (n := (order.map q.texts.symbol).length) (by
          intro r hr
          obtain ⟨k, _, rfl⟩ := List.mem_map.1 hr
          exact hclean _ (text_fits hv (hfits _ (laidOutSeries_good hR k)))) (by
          intro r hr
          obtain ⟨k, rfl⟩ := List.mem_ofFn.1 hr
          exact hclean _ (hw k)) (by simp) he2
      refine ⟨hR k, ?_⟩
      have := congrArg (fun l => l[(k : Nat)]?) he3
      simp only [List.getElem?_map, List.getElem?_range k.2, Option.map_some, List.getElem?_ofFn, dif_pos k.2] at this
      rw [← hse k]
      exact (rows_back hv (hfits _ (laidOutSeries_good hR k)) _ (hw k)).1 (Option.some.inj this)
    · intro hall
      have hR : ∀ k t j, 0 < R k t j ∧ R k t j ≤ 1 := fun k => (hall k).1
      refine ⟨hR, ?_⟩
      rw [k2 a b n ha hn1 hb _ (laidOutSeries_good hR)]
      congr 4
      refine List.ext_getElem (by simp) ?_
      intro k hk1 hk2
      simp only [List.getElem_map, List.getElem_range, List.getElem_ofFn]
      have hk : k < n := by simpa using hk1
      refine (rows_back hv (hfits _ (laidOutSeries_good hR k)) _ (hw ⟨k, hk⟩)).2 ?_
      rw [hse ⟨k, hk⟩]
      exact (hall ⟨k, hk⟩).2
  have htot : ∀ k, d.storyTotal (d.prob num.value) ((w k).map (rowTells (order.map q.texts.symbol))) =
      q.file.unrolledTotal (drawnBefore order ((w k).map (rowBack d (order.map q.texts.symbol))) steps 0) steps (fun _ => True) :=
    fun k => (drawn_total h.sensible hV hD h.order h.complete o1.1 hv (hw k)).symm
  rw [hbox, volume_pi_pi, ENNReal.ofReal_prod_of_nonneg (fun k _ => by rw [htot k]; exact total_nonneg hV _ _)]
  refine Finset.prod_congr rfl fun k _ => ?_
  rw [htot k]
  refine drawn_volume_length hV hT hp o1.1 (by simp) ?_ (back_fits hv (hw k))
  intro r hr e
  obtain ⟨g1, g2, g3⟩ := k1 r hr
  exact drawn_exactly hV hT hp o1.1 hr g1 g2 g3 e

/-! ### arguments -/

/-- An argument that is not a number of things, but small enough for an `int`. -/
def RefusedArgument (a : Option K) : Prop := ∀ x, a = some x → (-2147483649 < x ∧ x < 2147483648) ∧ (x ≤ 0 ∨ 1000000 < x)

theorem countArgument_refused {a : Option K} (h : RefusedArgument a) : countArgument a = ok none := by
  unfold countArgument
  cases a with
  | none => rfl
  | some x =>
    obtain ⟨⟨h1, h2⟩, h3⟩ := h x rfl
    simp only
    rw [if_neg (by rintro (h | h) <;> linarith), if_pos h3]

/-- **C89**, unusable arguments: the exit code is -1 and there is no file, if there is no number for the seed, if one of the other numbers is refused, or if the
number of series is below one (which is not refused). -/
theorem C89_arguments {num : Numerals K} {d : NetText} {net : List Char} (h : GoodNet num d net) (ptr : Nat) {s : Session K} (hr : s.lex.readLine = true) (hg : s.g.Fresh)
    (mark : Nat → Bool) (fuel : Nat) (R : Nat → Nat → Nat → K) :
    (∀ a b, sampleMain num ptr s mark fuel R net false a b = ok (-1, none)) ∧
    (∀ a b, RefusedArgument a → sampleMain num ptr s mark fuel R net true a b = ok (-1, none)) ∧
    (∀ a n b, IsCount a n → RefusedArgument b → sampleMain num ptr s mark fuel R net true (some a) b = ok (-1, none)) ∧
    (∀ a b n, IsCount a 0 → IsCount b n → sampleMain num ptr s mark fuel R net true (some a) (some b) = ok (-1, none)) := by
  obtain ⟨q, i, h1, _⟩ := openedModel h ptr hr hg
  unfold sampleMain
  rw [h1]
  refine ⟨fun a b => rfl, fun a b ha => ?_, fun a n b ha hb => ?_, fun a b n ha hb => ?_⟩
  · simp only [ok_bind, Bool.true_eq_false, if_false]
    rw [countArgument_refused ha]
    rfl
  · simp only [ok_bind, Bool.true_eq_false, if_false]
    rw [countArgument_is ha]
    simp only [ok_bind]
    rw [countArgument_refused hb]
    rfl
  · simp only [ok_bind, Bool.true_eq_false, if_false]
    rw [countArgument_is ha]
    simp only [ok_bind]
    rw [countArgument_is hb]
    rfl

/-- **C89** is false for unusable arguments in general: numbers too great for an `int` are converted before they are refused, which is undefined. -/
theorem C89_huge_refuted {num : Numerals K} {d : NetText} {net : List Char} (h : GoodNet num d net) (ptr : Nat) {s : Session K} (hr : s.lex.readLine = true) (hg : s.g.Fresh)
    (mark : Nat → Bool) (fuel : Nat) (R : Nat → Nat → Nat → K) {a : K} (ha : 2147483648 ≤ a) (b : Option K) :
    sampleMain num ptr s mark fuel R net true (some a) b = ub := by
  obtain ⟨q, i, h1, _⟩ := openedModel h ptr hr hg
  unfold sampleMain
  rw [h1]
  simp only [ok_bind, Bool.true_eq_false, if_false]
  unfold countArgument
  simp only
  rw [if_pos (Or.inr ha)]
  rfl

/-! ## witnesses -/

theorem rain_complete : rain.Complete decimalNum.value where
  potentials := by decide
  numbers := by decide
  positive := by decide +kernel
  free := by
    intro n hn h p hp hc
    simp only [rain, List.mem_cons, List.not_mem_nil, or_false] at hn hp
    rcases hn with rfl | rfl | rfl
    · exact absurd rfl h
    · exact absurd rfl h
    · rcases hp with rfl | rfl | rfl
      · exact absurd hc (by decide)
      · rfl
      · exact absurd hc (by decide)

theorem rain_net : GoodNet decimalNum rain (fileText (wordLines rain.lexemes)) where
  sensible := rain_good.sensible
  laidOut := rain_good.laidOut
  short := rain_good.short
  labels := rain_good.labels
  order := rain_good.order
  temporal := rain_good.temporal
  states := rain_good.states
  complete := rain_complete

example : SamplesRight decimalNum rain (fileText (wordLines rain.lexemes)) (Set.Ioc 0 1) ∧ IsCount (2 : ℚ) 2 ∧ IsCount (5 / 2 : ℚ) 2 :=
  ⟨C89_lines_partial rain_net, by norm_num [IsCount], by norm_num [IsCount]⟩

/-- random numbers -/
def spread (k t j : Nat) : ℚ := ((7 * k + 4 * t + 3 * j) % 10 + 1 : ℕ) / 10

/-- the text written -/
example : sampleMain decimalNum 8 Session.initial (fun _ => false) 4 spread (fileText (wordLines rain.lexemes)) true (some 2) (some (5 / 2)) =
    ok (0, some "O,A,B\nx,x,x\nx,y,x\n\ny,x,x\nx,x,x\n\n".toList) := by
  decide +kernel

example : sampleMain decimalNum 8 Session.initial (fun _ => false) 4 spread (fileText (wordLines rain.lexemes)) false (some 2) (some 2) = ok (-1, none) ∧
    RefusedArgument (some (0 : ℚ)) ∧ RefusedArgument (some (1000001 : ℚ)) ∧ IsCount (1 / 2 : ℚ) 0 :=
  ⟨(C89_arguments rain_net 8 rfl Statics.initial_fresh _ _ _).1 _ _, by intro x h; cases h; norm_num, by intro x h; cases h; norm_num, by norm_num [IsCount]⟩

example : sampleMain decimalNum 8 Session.initial (fun _ => false) 4 spread (fileText (wordLines rain.lexemes)) true (some 3000000000) (some 2) = ub :=
  C89_huge_refuted rain_net 8 rfl Statics.initial_fresh _ _ _ (by norm_num) _

/-- the same numerals as real numbers -/
noncomputable def realNum (num : Numerals ℚ) : Numerals ℝ := { value := fun w => (num.value w : ℝ), int := num.int }

theorem realNum_number (num : Numerals ℚ) (d : NetText) (p : PotText) (c : List Nat) : p.number d (realNum num).value c = ((p.number d num.value c : ℚ) : ℝ) := by
  unfold PotText.number
  cases p.data with
  | none => simp
  | some g => rfl

theorem goodNet_real {num : Numerals ℚ} {d : NetText} {net : List Char} (h : GoodNet num d net) : GoodNet (realNum num) d net where
  sensible := by
    obtain ⟨h1, h2, h3, h4, h5, h6, h7⟩ := h.sensible
    refine ⟨h1, h2, h3, h4, h5, ?_, h7⟩
    intro p hp
    obtain ⟨g1, g2, g3, g4⟩ := h6 p hp
    refine ⟨g1, g2, g3, fun g hg => ⟨(g4 g hg).1, fun w hw => ?_⟩⟩
    exact Rat.cast_nonneg.2 ((g4 g hg).2 w hw)
  laidOut := h.laidOut
  short := h.short
  labels := h.labels
  order := h.order
  temporal := h.temporal
  states := h.states
  complete := by
    refine ⟨h.complete.potentials, h.complete.numbers, ?_, h.complete.free⟩
    intro p hp c hc
    have := h.complete.positive p hp c hc
    rw [show (fun i => p.number d (realNum num).value (d.change c p.child i)) = (fun a : ℚ => (a : ℝ)) ∘ (fun i => p.number d num.value (d.change c p.child i)) from
      funext fun i => realNum_number _ _ _ _, ← List.map_map (f := fun i => p.number d num.value (d.change c p.child i)) (g := fun a : ℚ => (a : ℝ))]
    show (List.map (Rat.castHom ℝ) _).sum ≠ 0
    rw [← map_list_sum]
    exact Rat.cast_ne_zero.2 this

example : GoodNet (realNum decimalNum) rain (fileText (wordLines rain.lexemes)) ∧ (∀ n ∈ rain.nodes, ∀ s ∈ n.states, ∀ c ∈ s, ¬ Separates c) ∧
    ∀ columns : List (List Char), columns = ["O".toList, "A".toList, "B".toList] → rain.FitsColumns columns 1 [["x".toList, "y".toList, "x".toList]] := by
  refine ⟨goodNet_real rain_net, by unfold Separates; decide, ?_⟩
  rintro _ rfl
  exact ⟨rfl, by decide⟩

/-- one node that is always in its second state -/
def certain : NetText :=
  { frame := .net [], nodes := [plainText "A"], pots := [{ child := "A".toList, parents := none, data := some (.num "0".toList (.num "1".toList .nil)) }] }

theorem certain_sensible : certain.Sensible decimalNum.value decimalNum.int := by
  have hval : ∀ w, (0 : ℚ) ≤ decimalNum.value w := fun w => by unfold decimalNum; positivity
  refine ⟨by decide, by decide, ?_, ?_, ?_, ?_, by decide⟩
  · intro n hn
    simp only [certain, List.mem_cons, List.not_mem_nil, or_false] at hn
    subst hn
    exact ⟨by decide, by decide, fun p hp => by cases hp; decide +kernel⟩
  · intro x y h
    cases h
  · intro n hn w hw
    simp only [certain, List.mem_cons, List.not_mem_nil, or_false] at hn
    subst hn
    cases hw
  · intro p hp
    simp only [certain, List.mem_cons, List.not_mem_nil, or_false] at hp
    subst hp
    exact ⟨by decide, by decide, by decide, fun g hg => by cases hg; exact ⟨by decide, fun w _ => hval w⟩⟩

theorem certain_complete : certain.Complete decimalNum.value where
  potentials := by decide
  numbers := by decide
  positive := by decide +kernel
  free := by decide

/-- **C89 in full is false**: a random number can be zero, and then `nipsample` writes the first state even if it is impossible. -/
theorem C89_refuted : ¬ C89_full ℚ := by
  intro h
  obtain ⟨columns, c1, _, c3⟩ := h decimalNum certain (fileText (wordLines certain.lexemes)) certain_sensible (laidOut_words certain (by decide +kernel)) certain_complete
    8 Session.initial rfl Statics.initial_fresh (fun _ => false) 2 (le_refl _)
  have hc : columns = ["A".toList] := List.perm_singleton.1 c1
  subst hc
  obtain ⟨rows, r1, r2⟩ := c3 1
  obtain ⟨t1, t2⟩ := r1 (fun _ _ => 0) (fun _ _ => ⟨le_refl _, zero_le_one⟩)
  have e := r2 1 1 1 (by norm_num [IsCount]) (le_refl _) (by norm_num [IsCount]) (fun _ _ _ => 0) (fun _ _ _ => ⟨le_refl _, zero_le_one⟩)
  obtain ⟨f1, f2⟩ := ((t2 _).1 rfl).1
  simp only [List.range_one, List.map_cons, List.map_nil] at e
  have hm : sampleMain decimalNum 8 Session.initial (fun _ => false) 2 (fun _ _ _ => 0) (fileText (wordLines certain.lexemes)) true (some 1) (some 1) =
      ok (0, some "A\nx\n\n".toList) := by decide +kernel
  rw [hm] at e
  generalize rows (fun _ _ => 0) = w at t1 e f1 f2
  obtain ⟨row, rfl⟩ := List.length_eq_one_iff.1 f1
  have := f2 row (by simp)
  cases this with
  | cons g1 g2 =>
    cases g2
    rw [show certain.statesOf "A".toList = ["x".toList, "y".toList] from by decide +kernel] at g1
    simp only [List.mem_cons, List.not_mem_nil, or_false] at g1
    rcases g1 with rfl | rfl
    · revert t1
      decide +kernel
    · revert e
      decide +kernel

end Nip.Props
