import Verif.AnyDynamic
import Verif.Props.Rounding
import Mathlib.Order.Fin.Basic

/-!
# C104: the inference code stays within its arrays whatever the numbers are

The operations of the numbers are arbitrary functions without laws, and so are the constants 0 and 1.  Numbers are compared by some linear order.  An `ok` result means that
no access was outside an array, no null pointer was used and no integer was divided by zero.
-/

namespace Nip.Props

open Nip Res Spec

section

variable {K : Type} [Zero K] [One K] [Add K] [_root_.Sub K] [Mul K] [Div K] [LinearOrder K]

theorem closed_all : Closed (fun _ : K => True) :=
  ⟨trivial, trivial, fun _ _ _ _ => trivial, fun _ _ _ _ => trivial, fun _ _ _ _ _ => trivial⟩

theorem normal_all : Normal (fun _ : K => True) (fun _ => True) := fun _ _ _ _ _ _ => trivial

/-- A call with legal arguments: the variable exists, and evidence has a number (of any kind) for each state. -/
def FittingCall (f : NetFile K) : Op K → Prop
  | .evidence v e => v ∈ f.vars ∧ e.length = f.card v
  | .observe v _ => v ∈ f.vars
  | .query v => v ∈ f.vars
  | _ => True

/-- For each time step and each variable a number for each state. -/
def Shaped (f : NetFile K) (vars : List Nat) (n : Nat) (results : List (List (List K))) : Prop :=
  results.length = n ∧ ∀ row ∈ results, List.Forall₂ (fun v r => r.length = f.card v) vars row

theorem FittingCall.proper {f : NetFile K} {op : Op K} (h : FittingCall f op) : Op.Proper (fun _ => True) f.card f.vars op := by
  cases op with
  | evidence v e => exact ⟨h.1, h.2, fun _ _ => trivial⟩
  | observe v i => exact h
  | query v => exact h
  | _ => trivial

/-- **C104**, histories: every history runs to its end, and every question is answered with a number for each state. -/
theorem C104_questions (ptr : Nat) {f : NetFile K} (hf : f.Fits) {hist : List (Op K)} (hh : ∀ op ∈ hist, FittingCall f op) :
    ∃ m, NetFile.runFile ptr f hist = ok m ∧ ∀ v ∈ f.vars, ∃ r m', m.getProbability v = ok (some r, m') ∧ r.length = f.card v := by
  obtain ⟨m0, h1, h2, _⟩ := build_any closed_all ptr hf (fun _ _ _ _ => trivial)
  obtain ⟨m, g1, _, g2⟩ := Model.performAll_any closed_all hist m0 h2 (fun op ho => (hh op ho).proper)
  refine ⟨m, ?_, ?_⟩
  · unfold NetFile.runFile
    rw [h1, ok_bind]
    exact g1
  · intro v hv
    obtain ⟨r, m', e1, _, _, e4, _⟩ := Model.answer_any closed_all normal_all g2 hv
    exact ⟨r, m', e1, e4⟩

/-- a model from a file, after a history -/
theorem fitting_ready (ptr : Nat) {f : NetFile K} (hf : f.Fits) (ht : f.Temporal) {hist : List (Op K)} (hh : ∀ op ∈ hist, FittingCall f op) :
    ∃ m0 s m, NetFile.parseModel ptr f = ok (some (m0, s)) ∧ m0.performAll hist = ok m ∧ Model.Fit (fun _ => True) f.card f.vars m ∧ Model.Link f.card f.vars m s ∧
      (fun v => (m.var v).parents) = NetFile.parentsOf f := by
  obtain ⟨m0, s, h1, _, h2, h3, h4⟩ := parse_any closed_all ptr hf ht (fun _ _ _ _ => trivial)
  obtain ⟨m, g1, g3, g2⟩ := Model.performAll_any closed_all hist m0 h2 (fun op ho => (hh op ho).proper)
  exact ⟨m0, s, m, h1, g1, g2, h3.same g3, by funext v; rw [g3.parents]; exact h4 v⟩

/-- **C104**, filtering (the log likelihood not asked for): a number for each time step, variable and state. -/
theorem C104_filtering (ptr : Nat) {f : NetFile K} (hf : f.Fits) (ht : f.Temporal) {hist : List (Op K)} (hh : ∀ op ∈ hist, FittingCall f op)
    (marked : Nat → Bool) {ts : TimeSeries} (hts : ts.WellFormed) (hob : ∀ v ∈ ts.observed, v ∈ f.vars) {vars : List Nat} (hvars : ∀ v ∈ vars, v ∈ f.vars) :
    ∃ m0 s m results ll m', NetFile.parseModel ptr f = ok (some (m0, s)) ∧ m0.performAll hist = ok m ∧
      forwardInference none s marked ts vars m = ok (results, ll, m') ∧ Shaped f vars ts.length results := by
  obtain ⟨m0, s, m, h1, h2, h3, h4, _⟩ := fitting_ready ptr hf ht hh
  obtain ⟨results, ll, m', e1, _, _, e4⟩ := Model.forward_any closed_all normal_all h3 h4 hf.states ⟨hts, hob⟩ marked hvars
  exact ⟨m0, s, m, results, ll, m', h1, h2, e1, e4.1, fun row hr => (e4.2 row hr).imp (fun _ _ h => h.1)⟩

/-- **C104**, smoothing (the log likelihood not asked for): a number for each time step, variable and state. -/
theorem C104_smoothing (ptr : Nat) {f : NetFile K} (hf : f.Fits) (ht : f.Temporal) {hist : List (Op K)} (hh : ∀ op ∈ hist, FittingCall f op)
    (marked : Nat → Bool) {ts : TimeSeries} (hts : ts.WellFormed) (hob : ∀ v ∈ ts.observed, v ∈ f.vars) {vars : List Nat} (hvars : ∀ v ∈ vars, v ∈ f.vars) :
    ∃ m0 s m results ll m', NetFile.parseModel ptr f = ok (some (m0, s)) ∧ m0.performAll hist = ok m ∧
      forwardBackward none s marked ts vars m = ok (results, ll, m') ∧ Shaped f vars ts.length results := by
  obtain ⟨m0, s, m, h1, h2, h3, h4, _⟩ := fitting_ready ptr hf ht hh
  obtain ⟨results, ll, m', e1, _, _, e4⟩ := Model.smooth_any closed_all normal_all h3 h4 hf.states ⟨hts, hob⟩ marked hvars
  exact ⟨m0, s, m, results, ll, m', h1, h2, e1, e4.1, fun row hr => (e4.2 row hr).imp (fun _ _ h => h.1)⟩

/-- **C104**, sampling: whatever the random numbers, each time step has for each variable one of its states. -/
theorem C104_sampling (ptr : Nat) {f : NetFile K} (hf : f.Fits) (ht : f.Temporal) (hac : f.Acyclic) {hist : List (Op K)}
    (hh : ∀ op ∈ hist, FittingCall f op) (mark : Nat → Bool) {fuel : Nat} (hfuel : f.vars.length + 1 ≤ fuel) (random : Nat → Nat → K) (length : Nat) :
    ∃ m0 s m ts m', NetFile.parseModel ptr f = ok (some (m0, s)) ∧ m0.performAll hist = ok m ∧ generateData s mark fuel random length m = ok (ts, m') ∧
      ts.observed.Perm f.vars ∧ ts.length = length ∧ ts.data.length = length ∧
      ∀ row ∈ ts.data, List.Forall₂ (fun v (k : Int) => 0 ≤ k ∧ k < f.card v) ts.observed row := by
  obtain ⟨m0, s, m, h1, h2, h3, h4, h5⟩ := fitting_ready ptr hf ht hh
  have hnet : Network (NetFile.parentsOf f) f.vars := by
    refine ⟨hf.sorted.imp ne_of_lt, fun v _ p hp => ?_⟩
    obtain ⟨q, hq, _, hp⟩ := (mem_parentsOf hf).mp hp
    exact ((hf.parents q hq).2 p hp).1
  obtain ⟨order, o1, o2⟩ := C49_order (NetFile.parentsOf f) f.vars mark hnet (ranked_acyclic hf hac) fuel hfuel
  obtain ⟨ts, m', e1, _, _, e4, e5, e6, e7⟩ := Model.generate_any closed_all normal_all hf.states h3 h4 mark fuel random length
    (order := order) (by rw [h5, h3.vars]; exact o1) (fun v hv => o2.1.mem_iff.mp hv)
  exact ⟨m0, s, m, ts, m', h1, h2, e1, by rw [e4]; exact o2.1, e5, e6, by rw [e4]; exact e7⟩

end

/-! ## cases -/

/-- Seven numbers without any laws: 0 is the third of them, sums take three off the second summand, the first factor is the product, and quotients are
always the same.  Some numbers are smaller than 0. -/
structure Odd where
  val : Fin 7
deriving DecidableEq

instance : LinearOrder Odd := LinearOrder.lift' Odd.val (by rintro ⟨a⟩ ⟨b⟩ h; cases h; rfl)
instance : Zero Odd := ⟨⟨2⟩⟩
instance : One Odd := ⟨⟨5⟩⟩
instance : Add Odd := ⟨fun _ b => ⟨b.val - 3⟩⟩
instance : _root_.Sub Odd := ⟨fun a _ => a⟩
instance : Mul Odd := ⟨fun a _ => a⟩
instance : Div Odd := ⟨fun _ _ => ⟨6⟩⟩

/-- Variable 3 is the state of variable 2 in the step before; 2 depends on it, and 1 on 2. -/
def oddFile : NetFile Odd where
  vars := [1, 2, 3]
  card := fun v => if v = 1 then 3 else 2
  next := fun v => if v = 3 then some 2 else none
  pots := [{ child := 2, parents := [3], table := { card := [2, 2], data := [⟨0⟩, ⟨1⟩, ⟨2⟩, ⟨3⟩] } },
    { child := 1, parents := [2], table := { card := [3, 2], data := [⟨0⟩, ⟨6⟩, ⟨2⟩, ⟨4⟩, ⟨1⟩, ⟨2⟩] } }]

theorem oddFile_fits : oddFile.Fits where
  sorted := by decide
  ids := by decide
  states := by decide
  tables := by simp [oddFile]
  child := by decide
  parents := by decide
  distinct := by decide
  shape := by decide

theorem oddFile_temporal : oddFile.Temporal := by
  refine ⟨?_, ?_, ?_⟩
  · intro v hv u hu
    simp only [oddFile] at hu
    split at hu
    · subst_vars; exact ⟨_, List.mem_cons_self .., by simp⟩
    · cases hu
  · intro v hv u hu
    simp only [oddFile] at hu
    split at hu
    · cases hu; subst_vars; decide
    · cases hu
  · intro v _ w _ u h1 h2
    simp only [oddFile] at h1 h2
    split at h1
    · split at h2
      · subst_vars; rfl
      · cases h2
    · cases h1

theorem oddFile_acyclic : oddFile.Acyclic := ⟨fun v => 4 - v, by decide⟩

def oddHistory : List (Op Odd) := [.priors true, .evidence 1 [⟨0⟩, ⟨6⟩, ⟨1⟩], .propagate, .query 2, .observe 3 1, .propagate, .reset, .observe 1 7]

theorem oddHistory_fitting : ∀ op ∈ oddHistory, FittingCall oddFile op := by
  intro op hop
  simp only [oddHistory, List.mem_cons, List.not_mem_nil, or_false] at hop
  rcases hop with rfl | rfl | rfl | rfl | rfl | rfl | rfl | rfl <;> first | trivial | (constructor <;> decide) | (show _ ∈ oddFile.vars; decide)

example := C104_questions 8 oddFile_fits oddHistory_fitting

/-- Two time steps in which the first variable is seen, once out of range. -/
def oddSeries : TimeSeries where
  numVars := 3
  numHidden := 2
  hidden := [2, 3]
  numObserved := 1
  observed := [1]
  length := 2
  data := [[2], [-1]]

theorem oddSeries_wellFormed : oddSeries.WellFormed where
  observed := rfl
  hidden := rfl
  rows := rfl
  row := by decide

example := C104_filtering 8 oddFile_fits oddFile_temporal oddHistory_fitting (fun _ => true) oddSeries_wellFormed (by decide) (vars := [2, 1]) (by decide)

example := C104_smoothing 8 oddFile_fits oddFile_temporal oddHistory_fitting (fun _ => true) oddSeries_wellFormed (by decide) (vars := [2, 1]) (by decide)

example := C104_sampling 8 oddFile_fits oddFile_temporal oddFile_acyclic oddHistory_fitting (fun _ => true) (fuel := 4) (by decide) (fun t i => ⟨Fin.ofNat 7 (t + 3 * i)⟩) 5

end Nip.Props
