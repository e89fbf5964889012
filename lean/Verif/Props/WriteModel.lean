import Verif.WriteLemmas
import Verif.Props.Continue

/-!
# C70: the tables that `write_model` prints
-/

namespace Nip

open Res Spec

set_option linter.unusedSectionVars false

variable {K : Type} [Field K] [LinearOrder K] [IsStrictOrderedRing K]

namespace Props

/-- For a model made from the file `f` and any history of use, `write_model` makes a table for each variable with parents, in the order of the
variables.  The table for the child of `q` has the dimensions of the child and its parents and `Good q` holds for it.  The model is left in order,
without evidence. -/
def WritesTables (Good : Parsed K → Potential K → Prop) (ptr : Nat) (f : NetFile K) (hist : List (Op K)) : Prop :=
  ∃ m ts m', NetFile.runFile ptr f hist = ok m ∧ m.writtenTables = ok (ts, m') ∧ AnswersAs f.net m' ∧
    (ts.map (fun t => t.1)).Sublist f.vars ∧ (∀ t ∈ ts, ∃ q ∈ f.pots, q.child = t.1 ∧ q.parents ≠ []) ∧
    ∀ q ∈ f.pots, q.parents ≠ [] → ∃ p, (q.child, p) ∈ ts ∧ p.card = (q.child :: q.parents).map f.card ∧ p.data.length = p.card.prod ∧ Good q p

/-- The table has the numbers of the file. -/
def RightTable (f : NetFile K) (q : Parsed K) (p : Potential K) : Prop :=
  ∀ x, Legal f.card f.vars x → p.at' ((q.child :: q.parents).map x) = f.entry q x

variable (K) in
/-- **C70** in full. -/
def C70_full : Prop := ∀ (ptr : Nat) (f : NetFile K) (hist : List (Op K)), f.Valid → f.Normalised → f.Acyclic → (∀ op ∈ hist, op.Valid f.net) →
  WritesTables (RightTable f) ptr f hist

/-- the states of the parents of `q` in `x` occur together with some probability -/
def Occurs (f : NetFile K) (q : Parsed K) (x : Nat → Nat) : Prop :=
  ∃ y, Legal f.card f.vars y ∧ (∀ u ∈ q.parents, y u = x u) ∧ f.net.tables y ≠ 0

/-- For all combinations of states of the parents that occur, the table has the numbers of the file.  For the others it has them or is zero. -/
def RightColumns (f : NetFile K) (q : Parsed K) (p : Potential K) : Prop :=
  ∀ x, Legal f.card f.vars x →
    (∀ j, j < f.card q.child → p.at' (j :: q.parents.map x) = f.entry q (Function.update x q.child j)) ∨
    ((∀ j, j < f.card q.child → p.at' (j :: q.parents.map x) = 0) ∧ ¬ Occurs f q x)

theorem legal_wrap {f : NetFile K} {x : Nat → Nat} (h : Legal f.card f.vars x) {v : Nat} (hv : v ∈ f.vars) : wrap f.card x v = x v := Nat.mod_eq_of_lt (h v hv)

theorem entry_family {f : NetFile K} (hf : f.Valid) {q : Parsed K} (hq : q ∈ f.pots) {x y : Nat → Nat} (h : ∀ u ∈ q.child :: q.parents, x u = y u) :
    f.entry q x = f.entry q y := by
  unfold NetFile.entry
  congr 1
  apply List.map_congr_left
  intro u hu
  have := (List.mem_filter.1 hu).2
  simp only [decide_eq_true_eq] at this
  exact h u (by simpa using this)

theorem states_legal {f : NetFile K} {x : Nat → Nat} (h : Legal f.card f.vars x) {vs : List Nat} (hv : ∀ v ∈ vs, v ∈ f.vars) : states f.card vs x = vs.map x := by
  unfold states
  exact List.map_congr_left fun v hm => Nat.mod_eq_of_lt (h v (hv v hm))

/-- a column in terms of the specification -/
theorem right_columns {f : NetFile K} (hf : f.Valid) (hn : f.Normalised) {q : Parsed K} (hq : q ∈ f.pots) {p : Potential K}
    (h : ∀ x, (∀ j, j < f.card q.child → p.at' (states f.card (q.child :: q.parents) (Function.update x q.child j)) = f.entry q (wrap f.card (Function.update x q.child j))) ∨
      ((∀ j, j < f.card q.child → p.at' (states f.card (q.child :: q.parents) (Function.update x q.child j)) = 0) ∧ f.net.tables (wrap f.card x) = 0)) :
    RightColumns f q p := by
  have hpar : ∀ u ∈ q.parents, u ∈ f.vars ∧ u ≠ q.child := fun u hu => (hf.parents q hq).2 u hu
  have hc := hf.child q hq
  have hleg : ∀ {x j}, Legal f.card f.vars x → j < f.card q.child → Legal f.card f.vars (Function.update x q.child j) := by
    intro x j hx hj v hv
    by_cases e : v = q.child
    · subst e; rw [Function.update_self]; exact hj
    · rw [Function.update_of_ne e]; exact hx v hv
  have hcol : ∀ {x j}, Legal f.card f.vars x → j < f.card q.child → states f.card (q.child :: q.parents) (Function.update x q.child j) = j :: q.parents.map x := by
    intro x j hx hj
    rw [states_legal (hleg hx hj) (by intro v hv; rcases List.mem_cons.1 hv with rfl | hv; exacts [hc, (hpar v hv).1]), List.map_cons, Function.update_self]
    congr 1
    exact List.map_congr_left fun u hu => Function.update_of_ne (hpar u hu).2 _ _
  have hent : ∀ {x j}, Legal f.card f.vars x → j < f.card q.child → f.entry q (wrap f.card (Function.update x q.child j)) = f.entry q (Function.update x q.child j) := by
    intro x j hx hj
    refine entry_family hf hq fun u hu => legal_wrap (hleg hx hj) ?_
    rcases List.mem_cons.1 hu with rfl | hu
    exacts [hc, (hpar u hu).1]
  intro x hx
  rcases h x with h1 | ⟨h1, h2⟩
  · left
    intro j hj
    rw [← hcol hx hj, h1 j hj, hent hx hj]
  · right
    have hzero : ∀ j, j < f.card q.child → p.at' (j :: q.parents.map x) = 0 := fun j hj => by rw [← hcol hx hj]; exact h1 j hj
    refine ⟨hzero, ?_⟩
    rintro ⟨y, y1, y2, y3⟩
    have hpy : q.parents.map y = q.parents.map x := List.map_congr_left y2
    rcases h y with k1 | ⟨_, k2⟩
    · have hs := hn q hq y y1
      rw [Finset.sum_eq_zero] at hs
      · exact zero_ne_one hs
      · intro j hj
        have hj := Finset.mem_range.1 hj
        rw [← hent y1 hj, ← k1 j hj, hcol y1 hj, hpy]
        exact hzero j hj
    · apply y3
      rw [← k2]
      exact (net_local hf).tables _ _ fun v hv => (legal_wrap y1 hv).symm

theorem writes_columns (ptr : Nat) {f : NetFile K} (hf : f.Valid) (hn : f.Normalised) (ha : f.Acyclic) {hist : List (Op K)} (hh : ∀ op ∈ hist, op.Valid f.net)
    {Good : Parsed K → Potential K → Prop} (hgood : ∀ q ∈ f.pots, ∀ p, RightColumns f q p → Good q p) : WritesTables Good ptr f hist := by
  obtain ⟨m, m1, h1, h2, h3⟩ := Model.idle_reset ptr hf hh
  obtain ⟨tab, m2, k1, k2, k3⟩ := Model.writtenTables_spec hf hn ha h2 h3
  refine ⟨m, _, m2, h1, k2, answersAs_of (net_local hf) k3.holds, ?_, ?_, ?_⟩
  · rw [List.map_map]
    show ((Model.childrenOf f).map id).Sublist f.vars
    rw [List.map_id]
    exact List.filter_sublist
  · intro t ht
    obtain ⟨v, hv, rfl⟩ := List.mem_map.1 ht
    obtain ⟨q, q1, q2, q3⟩ := (Model.mem_childrenOf hf).1 hv
    exact ⟨q, q1, q2, q3⟩
  · intro q hq hp
    refine ⟨tab q.child, List.mem_map.2 ⟨q.child, (Model.mem_childrenOf hf).2 ⟨q, hq, rfl, hp⟩, rfl⟩, k1.card q hq hp, (k1.wf q hq hp).1, ?_⟩
    exact hgood q hq _ (right_columns hf hn hq (k1.column q hq hp))

/-- **C70** (partial): the numbers are right for all states of the parents that can occur.  What is missing from `C70_full`, which is false: states of
the parents that cannot occur, for which zeros may be written. -/
theorem C70_columns_partial (ptr : Nat) {f : NetFile K} (hf : f.Valid) (hn : f.Normalised) (ha : f.Acyclic) {hist : List (Op K)} (hh : ∀ op ∈ hist, op.Valid f.net) :
    WritesTables (RightColumns f) ptr f hist := writes_columns ptr hf hn ha hh fun _ _ _ h => h

/-- **C70** (partial) for networks where all states of parents can occur; for instance if no number in the tables is zero.  What is missing: other
networks. -/
theorem C70_occurring_partial (ptr : Nat) {f : NetFile K} (hf : f.Valid) (hn : f.Normalised) (ha : f.Acyclic) {hist : List (Op K)} (hh : ∀ op ∈ hist, op.Valid f.net)
    (ho : ∀ q ∈ f.pots, q.parents ≠ [] → ∀ x, Legal f.card f.vars x → Occurs f q x) : WritesTables (RightTable f) ptr f hist := by
  obtain ⟨m, ts, m', h1, h2, h3, h4, h5, h6⟩ := C70_columns_partial ptr hf hn ha hh
  refine ⟨m, ts, m', h1, h2, h3, h4, h5, fun q hq hp => ?_⟩
  obtain ⟨p, p1, p2, p3, p4⟩ := h6 q hq hp
  refine ⟨p, p1, p2, p3, fun x hx => ?_⟩
  rcases p4 x hx with k | ⟨_, k⟩
  · rw [List.map_cons, k (x q.child) (hx _ (hf.child q hq)), Function.update_eq_self]
  · exact absurd (ho q hq hp x hx) k

/-- A network where the second state of the variable 2 never occurs. -/
def lame : NetFile ℚ :=
  { vars := [1, 2, 3], card := fun _ => 2, next := fun _ => none
    pots := [{ child := 1, parents := [2, 3], table := { card := [2, 2, 2], data := [1 / 2, 1 / 2, 1 / 4, 3 / 4, 1 / 3, 2 / 3, 1 / 5, 4 / 5] } },
      { child := 2, parents := [3], table := { card := [2, 2], data := [1, 0, 1, 0] } },
      { child := 3, parents := [], table := { card := [2], data := [1 / 2, 1 / 2] } }] }

theorem lame_valid : lame.Valid where
  sorted := by decide
  ids := by decide
  states := fun _ _ => Nat.zero_lt_two
  tables := by simp [lame]
  child := by decide +kernel
  parents := by decide +kernel
  distinct := by decide +kernel
  shape := by decide +kernel
  nonneg := by decide +kernel

theorem lame_normalised : lame.Normalised := by
  intro q hq x hx
  have h2 : x 2 < 2 := hx 2 (by decide)
  have h3 : x 3 < 2 := hx 3 (by decide)
  simp only [lame, List.mem_cons, List.not_mem_nil, or_false] at hq
  rcases hq with rfl | rfl | rfl
  · have : ∀ b, b < 2 → ∀ c, c < 2 → ∑ j ∈ Finset.range 2, (⟨[2, 2, 2], [1 / 2, 1 / 2, 1 / 4, 3 / 4, 1 / 3, 2 / 3, 1 / 5, 4 / 5]⟩ : Potential ℚ).at' [j, b, c] = 1 := by
      decide +kernel
    exact this (x 2) h2 (x 3) h3
  · have : ∀ b, b < 2 → ∑ j ∈ Finset.range 2, (⟨[2, 2], [1, 0, 1, 0]⟩ : Potential ℚ).at' [j, b] = 1 := by decide +kernel
    exact this (x 3) h3
  · have : ∑ j ∈ Finset.range 2, (⟨[2], [1 / 2, 1 / 2]⟩ : Potential ℚ).at' [j] = 1 := by decide +kernel
    exact this

theorem lame_acyclic : lame.Acyclic := ⟨fun v => 3 - v, by decide +kernel⟩

/-- The hypotheses of the partial theorem are met, with evidence that contradicts the network. -/
example : WritesTables (RightColumns lame) 8 lame [.priors false, .observe 2 1, .propagate] := by
  refine C70_columns_partial 8 lame_valid lame_normalised lame_acyclic ?_
  intro op hop
  simp only [List.mem_cons, List.not_mem_nil, or_false] at hop
  rcases hop with rfl | rfl | rfl
  · trivial
  · show 2 ∈ lame.vars; decide
  · trivial

/-- So are those for networks where all states of parents can occur. -/
example : WritesTables (RightTable biased) 8 biased [.priors false, .observe 3 1] := by
  refine C70_occurring_partial 8 biased_valid biased_normalised biased_acyclic ?_ ?_
  · intro op hop
    simp only [List.mem_cons, List.not_mem_nil, or_false] at hop
    rcases hop with rfl | rfl
    · trivial
    · show 3 ∈ biased.vars; decide
  · intro q _ _ x hx
    refine ⟨x, hx, fun _ _ => rfl, ?_⟩
    have h : ∀ a, a < 2 → ∀ b, b < 2 → ∀ c, c < 2 → biased.net.tables (fun v => if v = 1 then a else if v = 2 then b else c) ≠ 0 := by decide +kernel
    rw [(net_local biased_valid).tables x (fun v => if v = 1 then x 1 else if v = 2 then x 2 else x 3) ?_]
    · exact h _ (hx 1 (by decide)) _ (hx 2 (by decide)) _ (hx 3 (by decide))
    · intro v hv
      have hv : v ∈ [1, 2, 3] := hv
      simp only [List.mem_cons, List.not_mem_nil, or_false] at hv
      rcases hv with rfl | rfl | rfl <;> simp

/-- **C70** is false: for the second state of variable 2, zeros are written for variable 1 instead of `1/4`, `3/4`, `1/5` and `4/5`. -/
theorem C70_refuted : ¬ C70_full ℚ := by
  intro h
  obtain ⟨m, ts, m', h1, h2, _, _, _, h6⟩ := h 8 lame [] lame_valid lame_normalised lame_acyclic (by simp)
  obtain ⟨p, p1, p2, _, p4⟩ := h6 { child := 1, parents := [2, 3], table := { card := [2, 2, 2], data := [1 / 2, 1 / 2, 1 / 4, 3 / 4, 1 / 3, 2 / 3, 1 / 5, 4 / 5] } } (by simp [lame]) (by simp)
  have hrun : (do
      let m ← NetFile.runFile 8 lame []
      let (ts, _) ← m.writtenTables
      ok (ts.map (fun t => (t.1, t.2.data)))) = ok [(1, [1 / 2, 1 / 2, 0, 0, 1 / 3, 2 / 3, 0, 0]), (2, [1, 0, 1, 0])] := by decide +kernel
  rw [h1, ok_bind, h2, ok_bind] at hrun
  simp only [Res.ok.injEq] at hrun
  have hmem : (1, p.data) ∈ ts.map (fun t => (t.1, t.2.data)) := List.mem_map.2 ⟨_, p1, rfl⟩
  rw [hrun] at hmem
  have hd : p.data = [1 / 2, 1 / 2, 0, 0, 1 / 3, 2 / 3, 0, 0] := by simpa using hmem
  have hp : p = ⟨[2, 2, 2], [1 / 2, 1 / 2, 0, 0, 1 / 3, 2 / 3, 0, 0]⟩ := by
    cases p
    simp only at hd p2
    subst hd p2
    rfl
  have := p4 (fun v => if v = 2 then 1 else 0) (by unfold Legal; decide)
  rw [hp] at this
  revert this
  decide +kernel

end Props

end Nip
