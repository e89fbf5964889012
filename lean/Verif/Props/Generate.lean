import Verif.GenerateTotal
import Verif.Props.Continue
import Verif.Cast
import Mathlib.MeasureTheory.Measure.Lebesgue.Basic

/-!
# C66: data generated at random
-/

namespace Nip.Props

open Nip Res Spec

set_option linter.unusedSectionVars false

variable {K : Type} [Field K] [LinearOrder K]

/-- A time series without hidden variables, with its columns in the given order. -/
def fullSeries (f : NetFile K) (order : List Nat) (length : Nat) (data : List (List Int)) : TimeSeries where
  numVars := f.vars.length
  numHidden := 0
  hidden := []
  numObserved := order.length
  observed := order
  length := length
  data := data

/-- `generate_data` makes `data r` out of the random numbers `r`, with the columns in the given order, after the model is read from a file and used in
some way; `mark` and `fuel` are those of `generateData`. -/
def Generated (ptr : Nat) (f : NetFile K) (hist : List (Op K)) (mark : Nat → Bool) (fuel length : Nat) (order : List Nat)
    (data : (Nat → Nat → K) → List (List Int)) : Prop :=
  ∃ m0 s m, NetFile.parseModel ptr f = ok (some (m0, s)) ∧ m0.performAll hist = ok m ∧ ∀ r, ∃ m',
    generateData s mark fuel r length m = ok (fullSeries f order length (data r), m')

/-- One row for each time step, one state of the right variable in each place. -/
def FitsOrder (f : NetFile K) (order : List Nat) (length : Nat) (data : List (List Int)) : Prop :=
  data.length = length ∧ ∀ row ∈ data, row.length = order.length ∧ ∀ i v : Nat, order[i]? = some v → ∃ k : Nat, row[i]? = some (k : Int) ∧ k < f.card v

/-- The value at place `i` of time step `t` is the one in whose interval the random number lies; the intervals are those of the probabilities given all
the values before. -/
def FollowsDraw (f : NetFile K) (order : List Nat) (r : Nat → Nat → K) (data : List (List Int)) (t i : Nat) : Prop :=
  ∀ (v : Nat) (row : List Int), order[i]? = some v → data[t]? = some row →
    ∀ k : Nat, row[i]? = some (k : Int) ↔ InInterval (f.unrolledPosterior (drawnBefore order data t i) (t + 1) t v) (r t i) k

/-- The random number for the value at place `i` of time step `t` lies in the interval of this value. -/
def LiesIn (f : NetFile K) (order : List Nat) (r : Nat → Nat → K) (data : List (List Int)) (t i : Nat) : Prop :=
  ∀ (v : Nat) (row : List Int) (k : Nat), order[i]? = some v → data[t]? = some row → row[i]? = some (k : Int) →
    InInterval (f.unrolledPosterior (drawnBefore order data t i) (t + 1) t v) (r t i) k

variable [IsStrictOrderedRing K]

theorem acyclic_graph {f : NetFile K} (hf : f.Valid) : f.Acyclic ↔ Acyclic f.givens f.vars := by
  have hgiv : ∀ u v, u ∈ f.givens v ↔ ∃ q ∈ f.pots, q.child = v ∧ u ∈ q.parents := fun u v => by rw [givens_eq, mem_parentsOf hf]
  constructor
  · rintro ⟨rank, hr⟩ v hv
    have : ∀ a b, Relation.TransGen (fun p c => c ∈ f.vars ∧ p ∈ f.givens c) a b → rank a < rank b := by
      intro a b h
      induction h with
      | single h =>
        obtain ⟨q, h1, h2, h3⟩ := (hgiv _ _).mp h.2
        rw [← h2]; exact hr q h1 _ h3
      | tail _ h ih =>
        obtain ⟨q, h1, h2, h3⟩ := (hgiv _ _).mp h.2
        refine lt_trans ih ?_
        rw [← h2]; exact hr q h1 _ h3
    exact lt_irrefl _ (this v v hv)
  · intro ha
    obtain ⟨order, _, h1, h2⟩ := C49_order f.givens f.vars (fun _ => false) ⟨hf.sorted.imp ne_of_lt, fun v _ p hp => ((givens_spec hf v).2 p hp).1⟩ ha _
      (le_refl _)
    refine ⟨fun v => order.idxOf v, ?_⟩
    intro q hq u hu
    have hc : q.child ∈ order := h1.mem_iff.mpr (hf.child q hq)
    obtain ⟨a, b, e⟩ := List.append_of_mem hc
    have hm := h2 a q.child b e u ((hgiv _ _).mpr ⟨q, hq, rfl, hu⟩)
    have hn : order.Nodup := h1.nodup_iff.mpr (hf.sorted.imp ne_of_lt)
    have hna : q.child ∉ a := by
      intro h
      rw [e] at hn
      exact (List.disjoint_of_nodup_append hn) h (List.mem_cons_self ..)
    simp only
    rw [e, List.idxOf_append_of_mem hm, List.idxOf_append_of_notMem hna]
    have := List.idxOf_lt_length_of_mem hm
    omega

theorem network_graph {f : NetFile K} (hf : f.Valid) : Network f.givens f.vars :=
  ⟨hf.sorted.imp ne_of_lt, fun v _ p hp => ((givens_spec hf v).2 p hp).1⟩

/-- the model after any use, ready for `generate_data` -/
theorem generate_ready (ptr : Nat) {f : NetFile K} (hf : f.Valid) (htm : f.Temporal) {hist : List (Op K)} (hh : ∀ op ∈ hist, op.Valid f.net) :
    ∃ m0 s m w, NetFile.parseModel ptr f = ok (some (m0, s)) ∧ m0.performAll hist = ok m ∧ Model.Holds f.net m w ∧ InterfaceOk f.net m s ∧ IsInterface f s ∧
      (fun v => (m.var v).parents) = f.givens ∧ m.varList = f.vars := by
  obtain ⟨m0, s, h1, h2, h3, h4, h5, h6⟩ := interface_spec ptr hf htm
  obtain ⟨m, g1, g2, g3⟩ := Model.performAll_spec hist h3 hh
  obtain ⟨mb, b1, _, b3, _⟩ := build_spec ptr hf
  have hmb : mb = m0 := by rw [h2] at b1; cases b1; rfl
  refine ⟨m0, s, m, _, h1, g1, g3, h4.keep g2.1.skel, ⟨h5, h6⟩, ?_, g3.sound.vars⟩
  funext v
  rw [g2.1.parents, ← hmb, (b3 v).1, givens_eq]

/-- one call of `generate_data`, from any state of the model; the order of the columns is always the same -/
theorem generate_from {f : NetFile K} (hf : f.Valid) (htm : f.Temporal) (hac : f.Acyclic) {s : Interface} (hs : IsInterface f s) (mark : Nat → Bool) {fuel : Nat}
    (hfuel : f.vars.length + 1 ≤ fuel) : ∃ order, TopologicalOrder f.givens f.vars order ∧
      ∀ mark', (∀ v, v ∉ f.vars → mark' v = mark v) → ∀ (length : Nat) (r : Nat → Nat → K) (m : Model K) (w : World K), Model.Holds f.net m w →
        InterfaceOk f.net m s → (fun v => (m.var v).parents) = f.givens →
          ∃ data m' w', generateData s mark' fuel r length m = ok (fullSeries f order length data, m') ∧ data.length = length ∧ (∀ row ∈ data, row.length = order.length) ∧
            RowsDrawn f order r data length ∧ Model.Holds f.net m' w' ∧ InterfaceOk f.net m' s ∧ (fun v => (m'.var v).parents) = f.givens := by
  obtain ⟨order, o1, o2⟩ := C49_order f.givens f.vars mark (network_graph hf) ((acyclic_graph hf).mp hac) fuel hfuel
  have hn : order.Nodup := o2.1.nodup_iff.mpr (hf.sorted.imp ne_of_lt)
  have hsub : ∀ v ∈ order, v ∈ f.vars := fun v hv => o2.1.mem_iff.mp hv
  refine ⟨order, o2, ?_⟩
  intro mark' hmark length r m w h3 h4 h6
  have h7 : m.varList = f.vars := h3.sound.vars
  have o1' : samplingOrder f.givens f.vars mark' fuel = ok order := by
    rw [← o1]
    unfold samplingOrder
    have : (fun v => if v ∈ f.vars then false else mark' v) = fun v => if v ∈ f.vars then false else mark v := by
      funext v
      by_cases hv : v ∈ f.vars
      · rw [if_pos hv, if_pos hv]
      · rw [if_neg hv, if_neg hv, hmark v hv]
    rw [this]
  obtain ⟨a, m1, m2, st, e1, e2, e3, e4, e5, e6, e7⟩ := generate_loop hf htm hs hn hsub r length h3 h4
  refine ⟨st.data, st.model, _, ?_, e6.length, e6.rows, e6.drawn, e6.holds, e6.face, ?_⟩
  · unfold generateData
    rw [h6, h7, o1', ok_bind, e1, ok_bind, e2, ok_bind, e3, ok_bind, e5, ok_bind, e4, h7]
    rfl
  · rw [← h6]
    funext v
    rw [e7.parents]

/-- what happens to all random numbers -/
theorem generate_drawn (ptr : Nat) {f : NetFile K} (hf : f.Valid) (htm : f.Temporal) (hac : f.Acyclic) {hist : List (Op K)} (hh : ∀ op ∈ hist, op.Valid f.net)
    (mark : Nat → Bool) {fuel : Nat} (hfuel : f.vars.length + 1 ≤ fuel) (length : Nat) :
    ∃ order data, Generated ptr f hist mark fuel length order data ∧ TopologicalOrder f.givens f.vars order ∧
      ∀ r, (data r).length = length ∧ (∀ row ∈ data r, row.length = order.length) ∧ RowsDrawn f order r (data r) length := by
  obtain ⟨m0, s, m, w, h1, h2, h3, h4, h5, h6, h7⟩ := generate_ready ptr hf htm hh
  obtain ⟨order, o2, key⟩ := generate_from hf htm hac h5 mark hfuel
  have key := fun r => key mark (fun _ _ => rfl) length r m w h3 h4 h6
  choose data m' w' k1 k2 k3 k4 _ using key
  exact ⟨order, data, ⟨m0, s, m, h1, h2, fun r => ⟨m' r, k1 r⟩⟩, o2, fun r => ⟨k2 r, k3 r, k4 r⟩⟩

theorem drawn_fits {f : NetFile K} {order : List Nat} {r : Nat → Nat → K} {data : List (List Int)} {length : Nat} (h1 : data.length = length)
    (h2 : ∀ row ∈ data, row.length = order.length) (h3 : RowsDrawn f order r data length) : FitsOrder f order length data := by
  refine ⟨h1, ?_⟩
  intro row hrow
  refine ⟨h2 row hrow, ?_⟩
  intro i v hv
  obtain ⟨t, ht, e⟩ := List.mem_iff_getElem.mp hrow
  obtain ⟨row', g1, g2, g3⟩ := h3 t (by omega)
  rw [List.getElem?_eq_getElem ht, e] at g1
  cases g1
  obtain ⟨hi, _⟩ := List.getElem?_eq_some_iff.mp hv
  obtain ⟨k, k1, k2, _⟩ := g3 i hi v hv
  exact ⟨k, k1, k2⟩

theorem drawn_follows {f : NetFile K} {order : List Nat} {r : Nat → Nat → K} {data : List (List Int)} {length : Nat} (h3 : RowsDrawn f order r data length)
    {t i : Nat} (ht : t < length) (hi : i < order.length) (hr : r t i ≤ 1) (hz : total f (drawnBefore order data t i) (t + 1) ≠ 0) :
    FollowsDraw f order r data t i := by
  intro v row hv hrow k
  obtain ⟨row', g1, g2, g3⟩ := h3 t ht
  rw [hrow] at g1
  cases g1
  obtain ⟨k', k1, k2, k3⟩ := g3 i hi v hv
  have hnow : drawnBefore order data t i t = known order row i := by
    rw [drawnBefore_now, List.getD_eq_getElem?_getD, hrow]; rfl
  rw [k3 hr _ (fun s hs => drawnBefore_past order data t i 0 hs) hnow hz k, k1]
  constructor
  · intro e; have := Option.some.inj e; omega
  · rintro rfl; rfl

/-- **C66**, for files with temporal links that make sense and without directed cycles: the columns are put in an order in which parents come before
children, each value is a state of its variable, and as long as the values drawn before are possible together, each value is the one in whose interval
the random number lies.  What is missing: files with directed cycles, where the function does not return (`C66_cycle`); temporal links that do not make
sense (`C53_shared_next_refuted`); values drawn before that are impossible, which can be drawn if a random number is zero (`C66_zero_refuted`). -/
theorem C66_draws_partial (ptr : Nat) {f : NetFile K} (hf : f.Valid) (htm : f.Temporal) (hac : f.Acyclic) {hist : List (Op K)} (hh : ∀ op ∈ hist, op.Valid f.net)
    (mark : Nat → Bool) {fuel : Nat} (hfuel : f.vars.length + 1 ≤ fuel) (length : Nat) :
    ∃ order data, Generated ptr f hist mark fuel length order data ∧ TopologicalOrder f.givens f.vars order ∧
      ∀ r, (∀ t i, r t i ≤ 1) → FitsOrder f order length (data r) ∧
        ∀ t i, t < length → i < order.length → f.unrolledTotal (drawnBefore order (data r) t i) (t + 1) (fun _ => True) ≠ 0 →
          FollowsDraw f order r (data r) t i := by
  obtain ⟨order, data, h1, h2, h3⟩ := generate_drawn ptr hf htm hac hh mark hfuel length
  refine ⟨order, data, h1, h2, ?_⟩
  intro r hr
  obtain ⟨g1, g2, g3⟩ := h3 r
  exact ⟨drawn_fits g1 g2 g3, fun t i ht hi hz => drawn_follows g3 ht hi (hr t i) hz⟩

/-- a state whose interval contains a positive number has a positive probability -/
theorem interval_pos {p : List K} {r : K} {k : Nat} (hr : 0 < r) (h : InInterval p r k) : 0 < p.getD k 0 := by
  obtain ⟨h1, h2⟩ := h
  have hs : (p.take (k + 1)).sum = (p.take k).sum + p.getD k 0 := by
    rw [List.take_add_one, List.sum_append, List.getD_eq_getElem?_getD]
    cases p[k]? <;> simp
  rw [hs] at h2
  rcases h1 with rfl | h1
  · simp at h2
    rw [List.getD_eq_getElem?_getD]
    exact lt_of_lt_of_le hr h2
  · linarith

theorem fits_at {f : NetFile K} {order : List Nat} {length : Nat} {data : List (List Int)} (h : FitsOrder f order length data) {t : Nat} (ht : t < length) (i v : Nat)
    (hv : order[i]? = some v) : ∃ k : Nat, (data.getD t [])[i]? = some (k : Int) ∧ k < f.card v := by
  obtain ⟨h1, h2⟩ := h
  rw [List.getD_eq_getElem _ _ (by omega)]
  exact (h2 _ (List.getElem_mem (by omega))).2 i v hv

/-- values chosen by positive random numbers are possible together -/
theorem follows_possible {f : NetFile K} (hf : f.Valid) (htm : f.Temporal) (hp : f.Proper) {order : List Nat} (ho : order.Nodup) (hsub : ∀ v ∈ order, v ∈ f.vars)
    {r : Nat → Nat → K} (hr : ∀ t i, 0 < r t i) {length : Nat} {data : List (List Int)} (hd : FitsOrder f order length data)
    (hfol : ∀ t i, t < length → i < order.length → total f (drawnBefore order data t i) (t + 1) ≠ 0 → FollowsDraw f order r data t i) :
    ∀ t, t < length → ∀ i, i ≤ order.length → total f (drawnBefore order data t i) (t + 1) ≠ 0 := by
  have hin : ∀ t, t < length → total f (drawnBefore order data t 0) (t + 1) ≠ 0 → ∀ i, i ≤ order.length → total f (drawnBefore order data t i) (t + 1) ≠ 0 := by
    intro t ht h0 i
    induction i with
    | zero => intro _; exact h0
    | succ i ih =>
      intro hi
      have hz := ih (by omega)
      have hl : t < data.length := by rw [hd.1]; exact ht
      obtain ⟨k, k1, k2⟩ := fits_at hd ht i order[i] (List.getElem?_eq_getElem (by omega))
      have hf1 := (hfol t i ht (by omega) hz order[i] data[t] (List.getElem?_eq_getElem (by omega)) (List.getElem?_eq_getElem hl) k).mp (by
        rw [List.getD_eq_getElem _ _ hl] at k1; exact k1)
      rw [draw_chain hf ho hsub (by omega) k1 k2]
      exact mul_ne_zero hz (interval_pos (hr t i) hf1).ne'
  have hstart : ∀ t, total f (drawnBefore order data t 0) (t + 1) = total f (drawnBefore order data t 0) t := by
    intro t
    rw [← proper_hide hf htm hp (drawnBefore order data t 0) t]
    refine total_seen fun s hs => ?_
    funext v
    unfold hide
    by_cases e : s = t
    · subst e; simp [drawnBefore, known]
    · rw [if_neg e]
  intro t
  induction t with
  | zero =>
    intro ht
    refine hin 0 ht ?_
    rw [hstart, total_zero]
    exact one_ne_zero
  | succ t ih =>
    intro ht
    refine hin (t + 1) ht ?_
    rw [hstart]
    have h2 : total f (drawnBefore order data (t + 1) 0) (t + 1) = total f (drawnBefore order data t order.length) (t + 1) := by
      refine total_seen fun s hs => ?_
      funext v
      unfold drawnBefore
      rw [if_pos hs]
      by_cases e : s < t
      · rw [if_pos e]
      · have : s = t := by omega
        subst this
        simp
    rw [h2]
    exact ih (by omega) _ (le_refl _)

/-- the values before do not depend on the rest -/
theorem drawnBefore_agree {order : List Nat} {d d' : List (List Int)} {t i : Nat} (h1 : ∀ s, s < t → d[s]? = d'[s]?) {row row' : List Int} (h2 : d[t]? = some row)
    (h3 : d'[t]? = some row') (h4 : ∀ j, j < i → row[j]? = row'[j]?) : drawnBefore order d t i = drawnBefore order d' t i := by
  funext s v
  unfold drawnBefore
  by_cases e : s < t
  · rw [if_pos e, if_pos e, List.getD_eq_getElem?_getD, List.getD_eq_getElem?_getD, h1 s e]
  · rw [if_neg e, if_neg e, List.getD_eq_getElem?_getD, List.getD_eq_getElem?_getD, h2, h3]
    simp only [Option.getD_some]
    rw [known_congr h4]

/-- data that follow the same random numbers are the same -/
theorem follows_unique {f : NetFile K} {order : List Nat} {r : Nat → Nat → K} {length : Nat} {d d' : List (List Int)} (hd : FitsOrder f order length d)
    (hd' : FitsOrder f order length d') (h : ∀ t i, t < length → i < order.length → FollowsDraw f order r d t i)
    (h' : ∀ t i, t < length → i < order.length → LiesIn f order r d' t i) : d = d' := by
  have key : ∀ t, t ≤ length → ∀ s, s < t → d[s]? = d'[s]? := by
    intro t
    induction t with
    | zero => intro _ s hs; omega
    | succ t ih =>
      intro ht s hs
      by_cases e : s < t
      · exact ih (by omega) s e
      have : s = t := by omega
      subst this
      have hl : s < d.length := by rw [hd.1]; omega
      have hl' : s < d'.length := by rw [hd'.1]; omega
      obtain ⟨row, hrow⟩ : ∃ row, row = d[s] := ⟨_, rfl⟩
      obtain ⟨row', hrow'⟩ : ∃ row', row' = d'[s] := ⟨_, rfl⟩
      have e1 : d[s]? = some row := by rw [List.getElem?_eq_getElem hl, hrow]
      have e2 : d'[s]? = some row' := by rw [List.getElem?_eq_getElem hl', hrow']
      obtain ⟨g1, g2⟩ := hd.2 row (by rw [hrow]; exact List.getElem_mem hl)
      obtain ⟨g1', g2'⟩ := hd'.2 row' (by rw [hrow']; exact List.getElem_mem hl')
      have hin : ∀ i, i ≤ order.length → ∀ j, j < i → row[j]? = row'[j]? := by
        intro i
        induction i with
        | zero => intro _ j hj; omega
        | succ i ihi =>
          intro hi j hj
          by_cases e : j < i
          · exact ihi (by omega) j e
          have : j = i := by omega
          subst this
          have ho : order[j]? = some order[j] := List.getElem?_eq_getElem (by omega)
          obtain ⟨k, k1, _⟩ := g2' j _ ho
          have hI := h' s j (by omega) (by omega) _ row' k ho e2 k1
          rw [← drawnBefore_agree (ih (by omega)) e1 e2 (ihi (by omega))] at hI
          rw [k1, (h s j (by omega) (by omega) _ row ho e1 k).mpr hI]
      rw [e1, e2]
      congr 1
      refine List.ext_getElem? fun j => ?_
      by_cases hj : j < order.length
      · exact hin _ (le_refl _) j hj
      · rw [List.getElem?_eq_none (by omega), List.getElem?_eq_none (by omega)]
  refine List.ext_getElem? fun t => ?_
  by_cases ht : t < length
  · exact key _ (le_refl _) t ht
  · rw [List.getElem?_eq_none (by rw [hd.1]; omega), List.getElem?_eq_none (by rw [hd'.1]; omega)]

/-- data drawn with positive random numbers are characterised by the intervals -/
theorem drawn_exactly {f : NetFile K} (hf : f.Valid) (htm : f.Temporal) (hp : f.Proper) {order : List Nat} (ho : order.Perm f.vars) {length : Nat}
    {r : Nat → Nat → K} (hr : ∀ t i, 0 < r t i ∧ r t i ≤ 1) {data : List (List Int)} (h1 : data.length = length) (h2 : ∀ row ∈ data, row.length = order.length)
    (h3 : RowsDrawn f order r data length) (d : List (List Int)) :
    data = d ↔ FitsOrder f order length d ∧ ∀ t i, t < length → i < order.length → LiesIn f order r d t i := by
  have g1 := drawn_fits h1 h2 h3
  have g2 : ∀ t i, t < length → i < order.length → total f (drawnBefore order data t i) (t + 1) ≠ 0 → FollowsDraw f order r data t i :=
    fun t i ht hi hz => drawn_follows h3 ht hi (hr t i).2 hz
  have hn : order.Nodup := ho.nodup_iff.mpr (hf.sorted.imp ne_of_lt)
  have hpos := follows_possible hf htm hp hn (fun v hv => ho.mem_iff.mp hv) (fun t i => (hr t i).1) g1 g2
  have hall : ∀ t i, t < length → i < order.length → FollowsDraw f order r data t i := fun t i ht hi => g2 t i ht hi (hpos t ht i (by omega))
  constructor
  · rintro rfl
    exact ⟨g1, fun t i ht hi v row k hv hrow hk => (hall t i ht hi v row hv hrow k).mp hk⟩
  · rintro ⟨k1, k2⟩
    exact follows_unique g1 k1 hall k2

/-- **C66**, for networks of conditional probabilities (`NetFile.Proper`) and random numbers above zero: the data are exactly those in which every value is the one
in whose interval the random number lies, given all the values before.  What is missing: see `C66_draws_partial`. -/
theorem C66_data_partial (ptr : Nat) {f : NetFile K} (hf : f.Valid) (htm : f.Temporal) (hp : f.Proper) {hist : List (Op K)} (hh : ∀ op ∈ hist, op.Valid f.net)
    (mark : Nat → Bool) {fuel : Nat} (hfuel : f.vars.length + 1 ≤ fuel) (length : Nat) :
    ∃ order data, Generated ptr f hist mark fuel length order data ∧ TopologicalOrder f.givens f.vars order ∧
      ∀ r, (∀ t i, 0 < r t i ∧ r t i ≤ 1) → ∀ d, data r = d ↔
        FitsOrder f order length d ∧ ∀ t i, t < length → i < order.length → LiesIn f order r d t i := by
  obtain ⟨order, data, h1, h2, h3⟩ := generate_drawn ptr hf htm hp.acyclic hh mark hfuel length
  refine ⟨order, data, h1, h2, fun r hr d => ?_⟩
  obtain ⟨g1, g2, g3⟩ := h3 r
  exact drawn_exactly hf htm hp h2.1 hr g1 g2 g3 d

/-- **C66**, the probability of the data as a whole: the probabilities of the values, each given those drawn before, multiply to the weight of the data in the
unrolled network.  So data are drawn from the distribution of the unrolled network. -/
theorem C66_chain {f : NetFile K} (hf : f.Valid) (htm : f.Temporal) (hp : f.Proper) {order : List Nat} (ho : order.Perm f.vars) {length : Nat} {data : List (List Int)}
    (hd : FitsOrder f order length data) :
    ∏ t ∈ Finset.range length, ∏ i ∈ Finset.range order.length, f.chance order data t i =
      f.unrolledTotal (drawnBefore order data length 0) length (fun _ => True) :=
  (chain_all hf htm hp (ho.nodup_iff.mpr (hf.sorted.imp ne_of_lt)) (fun v hv => ho.mem_iff.mp hv) (fun _ ht => fits_at hd ht) length (le_refl _)).symm

/-- **C66**, files with directed cycles: the search for the order of sampling never ends. -/
theorem C66_cycle (ptr : Nat) {f : NetFile K} (hf : f.Valid) (htm : f.Temporal) (hac : ¬ f.Acyclic) {hist : List (Op K)} (hh : ∀ op ∈ hist, op.Valid f.net) :
    ∃ m0 s m, NetFile.parseModel ptr f = ok (some (m0, s)) ∧ m0.performAll hist = ok m ∧ ∀ mark fuel r length, generateData s mark fuel r length m = ub := by
  obtain ⟨m0, s, m, w, h1, h2, h3, h4, h5, h6, h7⟩ := generate_ready ptr hf htm hh
  refine ⟨m0, s, m, h1, h2, ?_⟩
  intro mark fuel r length
  unfold generateData
  rw [h6, h7, C49_cycle f.givens f.vars mark (network_graph hf) (fun h => hac ((acyclic_graph hf).mpr h)) fuel]
  rfl

/-! ### the volume of the random numbers -/

/-- The probabilities of the states are not negative, and add up to at most one. -/
theorem posterior_weights {f : NetFile K} (hf : f.Valid) (seen : Nat → Nat → Int) (t : Nat) {v : Nat} (hv : v ∈ f.vars) :
    (∀ a ∈ f.unrolledPosterior seen (t + 1) t v, 0 ≤ a) ∧ (f.unrolledPosterior seen (t + 1) t v).sum ≤ 1 := by
  classical
  have he : ∀ i, f.unrolledTotal seen (t + 1) (fun X => X t v = i) =
      sumOver f.card f.vars (fun x => if x v = i then slice f seen t x * fwd f seen t x else 0) (fun _ => 0) := by
    intro i
    have h := unrolledTotal_eq f seen t 0 (fun x => x v = i)
    rw [show t + 1 + 0 = t + 1 from rfl] at h
    refine h.trans (sumOver_congr' fun x => ?_)
    by_cases e : x v = i <;> simp [e, bwd]
  have hterm : ∀ x, 0 ≤ slice f seen t x * fwd f seen t x := fun x => mul_nonneg (slice_nonneg hf _ _ _) (fwd_nonneg hf _ _ _)
  have hnn : ∀ i, 0 ≤ f.unrolledTotal seen (t + 1) (fun X => X t v = i) := by
    intro i
    rw [he]
    refine sumOver_nonneg (fun x => ?_) _
    split
    · exact hterm x
    · exact le_refl _
  have hz : 0 ≤ f.unrolledTotal seen (t + 1) (fun _ => True) := total_nonneg hf seen (t + 1)
  refine ⟨?_, ?_⟩
  · intro a ha
    obtain ⟨i, _, rfl⟩ := List.mem_map.mp ha
    exact div_nonneg (hnn i) hz
  · have hs : ∑ i ∈ Finset.range (f.card v), f.unrolledTotal seen (t + 1) (fun X => X t v = i) = f.unrolledTotal seen (t + 1) (fun _ => True) := by
      rw [Finset.sum_congr rfl fun i _ => he i, ← sumOver_sum]
      show _ = total f seen (t + 1)
      rw [total_succ]
      refine sumOver_legal (U := f.vars) (fun x hx => ?_) _ _ (fun v hv hn => absurd hv hn)
      rw [Finset.sum_ite_eq, if_pos (Finset.mem_range.mpr (hx v hv))]
    have hl : (f.unrolledPosterior seen (t + 1) t v).sum =
        ∑ i ∈ Finset.range (f.card v), f.unrolledTotal seen (t + 1) (fun X => X t v = i) / f.unrolledTotal seen (t + 1) (fun _ => True) := by
      unfold NetFile.unrolledPosterior
      rfl
    rw [hl, ← Finset.sum_div, hs]
    exact div_self_le_one _

theorem take_sum_bounds {p : List K} (h : ∀ a ∈ p, 0 ≤ a) (k : Nat) : 0 ≤ (p.take k).sum ∧ (p.take k).sum ≤ p.sum := by
  refine ⟨List.sum_nonneg fun a ha => h a (List.mem_of_mem_take ha), ?_⟩
  have : p.sum = (p.take k).sum + (p.drop k).sum := by rw [← List.sum_append, List.take_append_drop]
  rw [this]
  exact le_add_of_nonneg_right (List.sum_nonneg fun a ha => h a (List.mem_of_mem_drop ha))

/-- Random numbers for `n` places of `length` time steps. -/
def laidOut {length n : Nat} (r : Fin length → Fin n → ℝ) (t i : Nat) : ℝ := if h : t < length ∧ i < n then r ⟨t, h.1⟩ ⟨i, h.2⟩ else 1

theorem interval_eq {p : List ℝ} (h : ∀ a ∈ p, 0 ≤ a) (h1 : p.sum ≤ 1) (r : ℝ) (k : Nat) :
    ((0 < r ∧ r ≤ 1) ∧ InInterval p r k) ↔ r ∈ Set.Ioc (p.take k).sum (p.take (k + 1)).sum := by
  obtain ⟨b1, b2⟩ := take_sum_bounds h k
  obtain ⟨_, b3⟩ := take_sum_bounds h (k + 1)
  unfold InInterval
  rw [Set.mem_Ioc]
  constructor
  · rintro ⟨⟨h3, _⟩, h4 | h4, h5⟩
    · subst h4; exact ⟨by simpa using h3, h5⟩
    · exact ⟨h4, h5⟩
  · rintro ⟨h3, h4⟩
    exact ⟨⟨by linarith, by linarith⟩, Or.inr h3, h4⟩

theorem prefix_step (p : List ℝ) (k : Nat) : (p.take (k + 1)).sum - (p.take k).sum = p.getD k 0 := by
  rw [List.take_add_one, List.sum_append, List.getD_eq_getElem?_getD]
  cases p[k]? <;> simp

open MeasureTheory in
/-- the volume of the random numbers that give certain data -/
theorem drawn_volume {f : NetFile ℝ} (hf : f.Valid) (htm : f.Temporal) (hp : f.Proper) {order : List Nat} (ho : order.Perm f.vars) {length : Nat}
    {data : (Nat → Nat → ℝ) → List (List Int)} (h3 : ∀ r, (∀ t i, 0 < r t i ∧ r t i ≤ 1) → ∀ d, data r = d ↔
        FitsOrder f order length d ∧ ∀ t i, t < length → i < order.length → LiesIn f order r d t i) {d : List (List Int)} (hd : FitsOrder f order length d) :
    volume {r : Fin length → Fin order.length → ℝ | (∀ t i, 0 < r t i ∧ r t i ≤ 1) ∧ data (laidOut r) = d} =
      ENNReal.ofReal (f.unrolledTotal (drawnBefore order d length 0) length (fun _ => True)) := by
  obtain ⟨post, hpost⟩ : ∃ post : Nat → Nat → List ℝ, post = fun t i => f.unrolledPosterior (drawnBefore order d t i) (t + 1) t (order.getD i 0) := ⟨_, rfl⟩
  obtain ⟨val, hval⟩ : ∃ val : Nat → Nat → Nat, val = fun t i => ((d.getD t []).getD i 0).toNat := ⟨_, rfl⟩
  have hmem : ∀ i, i < order.length → order.getD i 0 ∈ f.vars := by
    intro i hi
    rw [List.getD_eq_getElem _ _ hi]
    exact ho.mem_iff.mp (List.getElem_mem hi)
  have hbox : {r : Fin length → Fin order.length → ℝ | (∀ t i, 0 < r t i ∧ r t i ≤ 1) ∧ data (laidOut r) = d} =
      Set.univ.pi (fun t : Fin length => Set.univ.pi (fun i : Fin order.length =>
        Set.Ioc ((post t i).take (val t i)).sum ((post t i).take (val t i + 1)).sum)) := by
    ext r
    have hiff : ∀ (t : Fin length) (i : Fin order.length), LiesIn f order (laidOut r) d t i ↔ InInterval (post t i) (r t i) (val t i) := by
      intro t i
      have e0 : laidOut r t i = r t i := by unfold laidOut; rw [dif_pos ⟨t.2, i.2⟩]
      have ho : order[(i : Nat)]? = some (order.getD i 0) := by rw [List.getElem?_eq_getElem i.2, List.getD_eq_getElem _ _ i.2]
      have hl : (t : Nat) < d.length := by rw [hd.1]; exact t.2
      obtain ⟨k, k1, _⟩ := fits_at hd t.2 i _ ho
      have hk : val t i = k := by
        rw [hval]
        show ((d.getD (t : Nat) []).getD (i : Nat) 0).toNat = k
        rw [show (d.getD (t : Nat) []).getD (i : Nat) 0 = (d.getD (t : Nat) [])[(i : Nat)]?.getD 0 from List.getD_eq_getElem?_getD, k1]
        simp
      have hrow : d[(t : Nat)]? = some (d.getD t []) := by rw [List.getElem?_eq_getElem hl, List.getD_eq_getElem _ _ hl]
      unfold LiesIn
      rw [e0, hk, hpost]
      constructor
      · intro h; exact h _ _ k ho hrow k1
      · intro h v row k' hv hr' hk'
        rw [ho] at hv
        rw [hrow] at hr'
        cases hv
        cases hr'
        rw [k1] at hk'
        have : k = k' := by have := Option.some.inj hk'; omega
        subst this
        exact h
    have hw : ∀ (t : Fin length) (i : Fin order.length), (∀ a ∈ post t i, 0 ≤ a) ∧ (post t i).sum ≤ 1 := by
      intro t i
      rw [hpost]
      exact posterior_weights hf _ _ (hmem i i.2)
    simp only [Set.mem_setOf_eq, Set.mem_pi, Set.mem_univ, true_imp_iff]
    have hext : (∀ t i, 0 < r t i ∧ r t i ≤ 1) → ∀ t i, 0 < laidOut r t i ∧ laidOut r t i ≤ 1 := by
      intro h t i
      unfold laidOut
      split
      · exact h _ _
      · exact ⟨one_pos, le_refl _⟩
    constructor
    · rintro ⟨g1, g2⟩ t i
      rw [← interval_eq (hw t i).1 (hw t i).2]
      exact ⟨g1 t i, (hiff t i).mp (((h3 _ (hext g1) d).mp g2).2 t i t.2 i.2)⟩
    · intro g
      have g' := fun t i => (interval_eq (hw t i).1 (hw t i).2 _ _).mpr (g t i)
      refine ⟨fun t i => (g' t i).1, ?_⟩
      rw [h3 _ (hext fun t i => (g' t i).1) d]
      exact ⟨hd, fun t i ht hi => (hiff ⟨t, ht⟩ ⟨i, hi⟩).mpr (g' ⟨t, ht⟩ ⟨i, hi⟩).2⟩
  have hnn : ∀ t i, i < order.length → 0 ≤ f.chance order d t i := by
    intro t i hi
    unfold NetFile.chance
    exact getD_nonneg (posterior_weights hf _ _ (hmem i hi)).1 _
  rw [hbox, volume_pi_pi, ← C66_chain hf htm hp ho hd]
  rw [Finset.prod_congr rfl fun t _ => volume_pi_pi _]
  rw [ENNReal.ofReal_prod_of_nonneg (fun t _ => Finset.prod_nonneg fun i hi => hnn t i (Finset.mem_range.mp hi)), ← Fin.prod_univ_eq_prod_range]
  refine Finset.prod_congr rfl fun t _ => ?_
  rw [ENNReal.ofReal_prod_of_nonneg (fun i hi => hnn t i (Finset.mem_range.mp hi)), ← Fin.prod_univ_eq_prod_range]
  refine Finset.prod_congr rfl fun i _ => ?_
  rw [Real.volume_Ioc, prefix_step, hpost, hval]
  rfl

open MeasureTheory in
/-- **C66**, as a statement about probability: if the random numbers are independent and uniform between zero and one, the probability of generating
given data is their weight in the unrolled network.  (The probability of an event is the volume of the random numbers for which it happens.) -/
theorem C66_distribution_partial (ptr : Nat) {f : NetFile ℝ} (hf : f.Valid) (htm : f.Temporal) (hp : f.Proper) {hist : List (Op ℝ)} (hh : ∀ op ∈ hist, op.Valid f.net)
    (mark : Nat → Bool) {fuel : Nat} (hfuel : f.vars.length + 1 ≤ fuel) (length : Nat) :
    ∃ order data, Generated ptr f hist mark fuel length order data ∧ TopologicalOrder f.givens f.vars order ∧
      ∀ d, FitsOrder f order length d →
        volume {r : Fin length → Fin order.length → ℝ | (∀ t i, 0 < r t i ∧ r t i ≤ 1) ∧ data (laidOut r) = d} =
          ENNReal.ofReal (f.unrolledTotal (drawnBefore order d length 0) length (fun _ => True)) := by
  obtain ⟨order, data, h1, h2, h3⟩ := C66_data_partial ptr hf htm hp hh mark hfuel length
  exact ⟨order, data, h1, h2, fun d hd => drawn_volume hf htm hp h2.1 h3 hd⟩

/-! ### random numbers equal to zero -/

/-- One variable that is always in the second of its states. -/
def surely : NetFile ℚ where
  vars := [1]
  card := fun _ => 2
  next := fun _ => none
  pots := [{ child := 1, parents := [], table := { card := [2], data := [0, 1] } }]

theorem surely_valid : surely.Valid where
  sorted := by simp [surely]
  ids := by simp [surely]
  states := fun _ _ => Nat.zero_lt_two
  tables := by simp [surely]
  child := by simp [surely]
  parents := by simp [surely]
  distinct := by simp [surely]
  shape := by simp [surely, NetFile.family]
  nonneg := by simp [surely]

theorem surely_temporal : surely.Temporal where
  used := by simp [surely]
  states := by simp [surely]
  distinct := by simp [surely]

theorem surely_proper : surely.Proper where
  complete := by simp [surely]
  normalised := by
    intro q hq x hx
    simp only [surely, List.mem_singleton] at hq
    subst hq
    have : ∑ j ∈ Finset.range 2, (⟨[2], [0, 1]⟩ : Potential ℚ).at' [j] = 1 := by decide +kernel
    simpa [surely, NetFile.entry, NetFile.family] using this
  acyclic := ⟨fun _ => 0, by simp [surely]⟩
  free := by simp [surely]

/-- Random numbers come from `rand() / RAND_MAX` (`src/nip.c:2533`), which is sometimes zero.  Then the first state is drawn even if it is impossible: it is false that
the generated data always have a positive probability. -/
theorem C66_zero_refuted : ¬ ∀ f : NetFile ℚ, f.Valid → f.Temporal → f.Proper → ∀ order data,
    Generated 8 f [] (fun _ => false) (f.vars.length + 1) 1 order data → ∀ r, (∀ t i, 0 ≤ r t i ∧ r t i ≤ 1) →
      f.unrolledTotal (drawnBefore order (data r) 1 0) 1 (fun _ => True) ≠ 0 := by
  intro h
  obtain ⟨order, data, h1, h2, h3⟩ := C66_draws_partial 8 surely_valid surely_temporal surely_proper.acyclic (hist := []) (by simp) (fun _ => false) (le_refl _) 1
  have ho : order = [1] := List.perm_singleton.mp h2.1
  subst ho
  refine h surely surely_valid surely_temporal surely_proper _ data h1 (fun _ _ => 0) (fun _ _ => ⟨le_refl _, zero_le_one⟩) ?_
  obtain ⟨g1, g2⟩ := h3 (fun _ _ => 0) (fun _ _ => zero_le_one)
  obtain ⟨d, hd⟩ : ∃ d, d = data (fun _ _ => 0) := ⟨_, rfl⟩
  rw [← hd] at g1 g2 ⊢
  have hrow : d[0]? = some (d.getD 0 []) := by
    rw [List.getElem?_eq_getElem (by rw [g1.1]; exact one_pos), List.getD_eq_getElem _ _ (by rw [g1.1]; exact one_pos)]
  have hz : total surely (drawnBefore [1] d 0 0) (0 + 1) ≠ 0 := by
    have : total surely (drawnBefore [1] d 0 0) (0 + 1) = total surely (drawnBefore [1] d 0 0) 0 := by
      rw [← proper_hide surely_valid surely_temporal surely_proper (drawnBefore [1] d 0 0) 0]
      refine total_seen fun s hs => ?_
      obtain rfl : s = 0 := by omega
      funext v
      simp [hide, drawnBefore, known]
    rw [this, total_zero]
    exact one_ne_zero
  have hk := (g2 0 0 one_pos one_pos hz 1 _ rfl hrow 0).mpr ⟨Or.inl rfl, by
    exact (take_sum_bounds (posterior_weights surely_valid _ 0 (by simp [surely])).1 _).1⟩
  show total surely (drawnBefore [1] d 1 0) (0 + 1) = 0
  rw [total_succ]
  have hv : vision (K := ℚ) surely.card (drawnBefore [1] d 1 0 0) 1 = [1, 0] := by
    have : drawnBefore [1] d 1 0 0 1 = 0 := by
      unfold drawnBefore known
      rw [if_pos one_pos, if_pos (by simp)]
      have : List.idxOf 1 [1] = 0 := by simp
      rw [this, show (d.getD 0 []).getD 0 (-1) = (d.getD 0 [])[0]?.getD (-1) from List.getD_eq_getElem?_getD, hk]
      rfl
    unfold vision
    rw [this]
    rfl
  have hs : ∀ x : Asg, x 1 < 2 → slice surely (drawnBefore [1] d 1 0) 0 x = 0 := by
    intro x hx
    rw [proper_slice surely_valid surely_proper _ _ (show Legal surely.card surely.vars x from fun v hv => by
      have : v = 1 := by simpa [surely] using hv
      subst this; exact hx)]
    have e1 : visible surely (drawnBefore [1] d 1 0 0) x = ([1, 0] : List ℚ).getD (x 1) 0 := by
      unfold visible
      show ([1].map _).prod = _
      simp only [List.map_cons, List.map_nil, List.prod_cons, List.prod_nil, mul_one]
      rw [hv]
    have e2 : tablesProd surely (active surely 0) x = ([0, 1] : List ℚ).getD (x 1 % 2) 0 := by
      simp [tablesProd, active, surely, NetFile.entry, NetFile.family, Potential.at', cellOf, position, wrap]
    rw [e1, e2]
    have : x 1 = 0 ∨ x 1 = 1 := by omega
    rcases this with e | e <;> rw [e] <;> simp
  show sumOver (fun _ => 2) [1] _ _ = 0
  simp only [sumOver]
  refine Finset.sum_eq_zero fun i hi => ?_
  rw [hs _ (by simpa using hi), zero_mul]

/-! ### cases -/

theorem hmm_proper : hmm.Proper where
  complete := by decide +kernel
  normalised := hmm_normalised
  acyclic := hmm_acyclic
  free := by decide +kernel

theorem cast_proper {f : NetFile ℚ} (h : f.Proper) : (castFile ℝ f).Proper where
  complete := by
    intro v hv
    obtain ⟨q, h1, h2⟩ := h.complete v hv
    exact ⟨castParsed ℝ q, List.mem_map.mpr ⟨q, h1, rfl⟩, h2⟩
  normalised := by
    intro q hq x hx
    obtain ⟨q, hq', rfl⟩ := List.mem_map.mp hq
    have := h.normalised q hq' x hx
    have h2 := congrArg (fun a : ℚ => (a : ℝ)) this
    simp only [Rat.cast_sum, Rat.cast_one] at h2
    rw [← h2]
    refine Finset.sum_congr rfl fun j _ => ?_
    exact castTo_at ℝ q.table _
  acyclic := by
    obtain ⟨rank, hr⟩ := h.acyclic
    refine ⟨rank, ?_⟩
    intro q hq u hu
    obtain ⟨q, hq', rfl⟩ := List.mem_map.mp hq
    exact hr q hq' u hu
  free := by
    intro v hv hn q hq hc
    obtain ⟨q, hq', rfl⟩ := List.mem_map.mp hq
    exact h.free v hv hn q hq' hc

/-- A hidden Markov model, used before, and five time steps. -/
example : ∃ order data, Generated 8 hmm [.priors false, .observe 3 1, .propagate] (fun _ => true) 4 5 order data ∧ TopologicalOrder hmm.givens hmm.vars order ∧
    ∀ r, (∀ t i, 0 < r t i ∧ r t i ≤ 1) → ∀ d, data r = d ↔
      FitsOrder hmm order 5 d ∧ ∀ t i, t < 5 → i < order.length → LiesIn hmm order r d t i :=
  C66_data_partial 8 hmm_valid hmm_temporal hmm_proper (by
    intro op hop
    have h3 : (3 : Nat) ∈ hmm.net.vars := by decide
    simp only [List.mem_cons, List.not_mem_nil, or_false] at hop
    rcases hop with rfl | rfl | rfl
    · trivial
    · exact h3
    · trivial) (fun _ => true) (by decide) 5

/-- The same with real numbers. -/
example : ∃ order data, Generated 8 (castFile ℝ hmm) [] (fun _ => false) 4 5 order data ∧ TopologicalOrder (castFile ℝ hmm).givens (castFile ℝ hmm).vars order ∧
    ∀ d, FitsOrder (castFile ℝ hmm) order 5 d →
      MeasureTheory.volume {r : Fin 5 → Fin order.length → ℝ | (∀ t i, 0 < r t i ∧ r t i ≤ 1) ∧ data (laidOut r) = d} =
        ENNReal.ofReal ((castFile ℝ hmm).unrolledTotal (drawnBefore order d 5 0) 5 (fun _ => True)) :=
  C66_distribution_partial 8 (cast_valid ℝ hmm_valid) (cast_temporal ℝ hmm_temporal) (cast_proper hmm_proper) (by simp) (fun _ => false) (by decide) 5

example : FitsOrder hmm [2, 1, 3] 2 [[0, 1, 0], [1, 0, 1]] := by
  refine ⟨rfl, ?_⟩
  intro row hrow
  simp only [List.mem_cons, List.not_mem_nil, or_false] at hrow
  have hc : ∀ v, hmm.card v = 2 := fun _ => rfl
  rcases hrow with rfl | rfl
  · refine ⟨rfl, fun i v hv => ?_⟩
    match i, hv with
    | 0, _ => exact ⟨0, rfl, by rw [hc]; decide⟩
    | 1, _ => exact ⟨1, rfl, by rw [hc]; decide⟩
    | 2, _ => exact ⟨0, rfl, by rw [hc]; decide⟩
    | (i + 3), hv => simp at hv
  · refine ⟨rfl, fun i v hv => ?_⟩
    match i, hv with
    | 0, _ => exact ⟨1, rfl, by rw [hc]; decide⟩
    | 1, _ => exact ⟨0, rfl, by rw [hc]; decide⟩
    | 2, _ => exact ⟨1, rfl, by rw [hc]; decide⟩
    | (i + 3), hv => simp at hv

/-- What is generated for two time steps if all random numbers are one half: variables 2, 1, 3. -/
example : (match NetFile.parseModel 8 hmm with
    | ok (some (m, s)) => (match generateData s (fun _ => false) 4 (fun _ _ => 1 / 2) 2 m with
      | ok (ts, _) => some (ts.observed, ts.data)
      | ub => none)
    | _ => none) = some ([2, 1, 3], [[0, 0, 0], [0, 0, 0]]) := by decide +kernel

/-- Two variables that are parents of each other. -/
def circular : NetFile ℚ where
  vars := [1, 2]
  card := fun _ => 2
  next := fun _ => none
  pots := [{ child := 1, parents := [2], table := { card := [2, 2], data := [1, 0, 0, 1] } },
    { child := 2, parents := [1], table := { card := [2, 2], data := [1, 0, 0, 1] } }]

theorem circular_valid : circular.Valid where
  sorted := by decide
  ids := by decide
  states := fun _ _ => Nat.zero_lt_two
  tables := by simp [circular]
  child := by decide +kernel
  parents := by decide +kernel
  distinct := by decide +kernel
  shape := by decide +kernel
  nonneg := by decide +kernel

example : circular.Valid ∧ circular.Temporal ∧ ¬ circular.Acyclic := by
  refine ⟨circular_valid, ⟨by simp [circular], by simp [circular], by simp [circular]⟩, ?_⟩
  rintro ⟨rank, hr⟩
  have h1 := hr _ (List.mem_cons_self ..) 2 (List.mem_cons_self ..)
  have h2 := hr _ (List.mem_cons_of_mem _ (List.mem_cons_self ..)) 1 (List.mem_cons_self ..)
  simp only at h1 h2
  omega

end Nip.Props
