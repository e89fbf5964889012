import Verif.HomomorphismBuild
import Verif.Tracked
import Verif.Props.Impossible
import Verif.Props.AnyArithmetic
import Mathlib.Data.Int.Log

/-!
# Rounding errors: property C105

The calculation is done in an arithmetic which holds, for every number, the exact one, those of all machines, and a count of roundings
(`Verif/Tracked.lean`).  Both the exact calculation and the one of each machine are images of it.
-/

namespace Nip.Props

open Res Spec

variable {K : Type} [Field K] [LinearOrder K] [IsStrictOrderedRing K]

/-! ## vocabulary -/

/-- The numbers of a table on a machine are those of another table up to a factor `q`. -/
def NearTable {R : Rounding K} (q : K) (t' : Potential (Machine K R)) (t : Potential K) : Prop :=
  t'.card = t.card ∧ List.Forall₂ (Machine.Near q) t'.data t.data

/-- A file on a machine is another file, up to a factor `q` in its numbers. -/
structure NearFile {R : Rounding K} (q : K) (f' : NetFile (Machine K R)) (f : NetFile K) : Prop where
  vars : f'.vars = f.vars
  card : f'.card = f.card
  next : f'.next = f.next
  pots : List.Forall₂ (fun p' p => p'.child = p.child ∧ p'.parents = p.parents ∧ NearTable q p'.table p.table) f'.pots f.pots

/-- A call on a machine is another call, up to a factor `q` in its numbers. -/
inductive NearCall {R : Rounding K} (q : K) : Op (Machine K R) → Op K → Prop where
  | evidence (v : Nat) (e' : List (Machine K R)) (e : List K) : List.Forall₂ (Machine.Near q) e' e → NearCall q (.evidence v e') (.evidence v e)
  | observe (v : Nat) (i : Int) : NearCall q (.observe v i) (.observe v i)
  | reset : NearCall q .reset .reset
  | priors (h : Bool) : NearCall q (.priors h) (.priors h)
  | propagate : NearCall q .propagate .propagate
  | mass : NearCall q .mass .mass
  | query (v : Nat) : NearCall q (.query v) (.query v)

/-- A machine, a bound for the relative errors of its roundings, and what it is given instead of a file and a history: numbers that have been rounded `k` times. -/
structure Setting (f : NetFile K) (hist : List (Op K)) (k : Nat) where
  R : Rounding K
  e : K
  accurate : Accurate R e
  file : NetFile (Machine K R)
  calls : List (Op (Machine K R))
  near_file : NearFile ((1 + e) ^ k) file f
  near_calls : List.Forall₂ (NearCall ((1 + e) ^ k)) calls hist

/-! ## the calculation on all machines at once -/

/-- the machine of a setting -/
def Setting.accuracy {f : NetFile K} {hist : List (Op K)} {k : Nat} (S : Setting f hist k) : Accuracy K := ⟨S.R, S.e, S.accurate⟩

section
variable {ι : Type} {acc : ι → Accuracy K}

theorem given_table (k : Nat) {t : Potential K} (ht : ∀ a ∈ t.data, 0 ≤ a) (t' : ∀ A, Potential (Machine K (acc A).R)) (h : ∀ A, NearTable ((acc A).q ^ k) (t' A) t) :
    ∃ x : Potential (Tracked acc), x.on Tracked.exact = t ∧ ∀ A, x.on (Tracked.onMachine A) = t' A := by
  obtain ⟨l, h1, h2⟩ := Tracked.given_list k t.data ht (fun A => (t' A).data) (fun A => (h A).2)
  refine ⟨{ card := t.card, data := l }, ?_, fun A => ?_⟩
  · unfold Potential.on
    rw [h1]
  · unfold Potential.on
    rw [h2]
    simp only
    rw [← (h A).1]

theorem given_pots (k : Nat) : ∀ (l : List (Parsed K)), (∀ q ∈ l, ∀ a ∈ q.table.data, 0 ≤ a) → ∀ (l' : ∀ A, List (Parsed (Machine K (acc A).R))),
    (∀ A, List.Forall₂ (fun p' p => p'.child = p.child ∧ p'.parents = p.parents ∧ NearTable ((acc A).q ^ k) p'.table p.table) (l' A) l) →
    ∃ x : List (Parsed (Tracked acc)), x.map (parsedOn Tracked.exact) = l ∧ ∀ A, x.map (parsedOn (Tracked.onMachine A)) = l' A := by
  intro l
  induction l with
  | nil =>
    intro _ l' h
    exact ⟨[], rfl, fun A => (List.forall₂_nil_right_iff.1 (h A)).symm⟩
  | cons p l ih =>
    intro hn l' h
    have h1 : ∀ A, ∃ p' rest, l' A = p' :: rest ∧ (p'.child = p.child ∧ p'.parents = p.parents ∧ NearTable ((acc A).q ^ k) p'.table p.table) ∧
        List.Forall₂ (fun p' p => p'.child = p.child ∧ p'.parents = p.parents ∧ NearTable ((acc A).q ^ k) p'.table p.table) rest l := by
      intro A
      obtain ⟨p', rest, g1, g2, g3⟩ := List.forall₂_cons_right_iff.1 (h A)
      exact ⟨p', rest, g3, g1, g2⟩
    choose p' rest e1 e2 e3 using h1
    obtain ⟨x, g1, g2⟩ := ih (fun q hq => hn q (by simp [hq])) rest e3
    obtain ⟨t, f1, f2⟩ := given_table k (hn p (by simp)) (fun A => (p' A).table) (fun A => (e2 A).2.2)
    refine ⟨{ child := p.child, parents := p.parents, table := t } :: x, ?_, fun A => ?_⟩
    · rw [List.map_cons, g1]
      unfold parsedOn
      rw [f1]
    · rw [List.map_cons, g2, e1]
      unfold parsedOn
      rw [f2]
      simp only
      rw [← (e2 A).1, ← (e2 A).2.1]

theorem given_file (k : Nat) {f : NetFile K} (hf : ∀ q ∈ f.pots, ∀ a ∈ q.table.data, 0 ≤ a) (f' : ∀ A, NetFile (Machine K (acc A).R))
    (h : ∀ A, NearFile ((acc A).q ^ k) (f' A) f) :
    ∃ x : NetFile (Tracked acc), netOn Tracked.exact x = f ∧ ∀ A, netOn (Tracked.onMachine A) x = f' A := by
  obtain ⟨l, h1, h2⟩ := given_pots k f.pots hf (fun A => (f' A).pots) (fun A => (h A).pots)
  refine ⟨{ vars := f.vars, card := f.card, next := f.next, pots := l }, ?_, fun A => ?_⟩
  · unfold netOn
    rw [h1]
  · unfold netOn
    rw [h2]
    simp only
    rw [← (h A).vars, ← (h A).card, ← (h A).next]

theorem given_calls (k : Nat) : ∀ (l : List (Op K)), (∀ v e, Op.evidence v e ∈ l → ∀ a ∈ e, 0 ≤ a) → ∀ (l' : ∀ A, List (Op (Machine K (acc A).R))),
    (∀ A, List.Forall₂ (NearCall ((acc A).q ^ k)) (l' A) l) →
    ∃ x : List (Op (Tracked acc)), x.map (opOn Tracked.exact) = l ∧ ∀ A, x.map (opOn (Tracked.onMachine A)) = l' A := by
  intro l
  induction l with
  | nil =>
    intro _ l' h
    exact ⟨[], rfl, fun A => (List.forall₂_nil_right_iff.1 (h A)).symm⟩
  | cons p l ih =>
    intro hn l' h
    have h1 : ∀ A, ∃ p' rest, l' A = p' :: rest ∧ NearCall ((acc A).q ^ k) p' p ∧ List.Forall₂ (NearCall ((acc A).q ^ k)) rest l := by
      intro A
      obtain ⟨p', rest, g1, g2, g3⟩ := List.forall₂_cons_right_iff.1 (h A)
      exact ⟨p', rest, g3, g1, g2⟩
    choose p' rest e1 e2 e3 using h1
    obtain ⟨x, g1, g2⟩ := ih (fun v e he => hn v e (by simp [he])) rest e3
    have key : ∃ y : Op (Tracked acc), opOn Tracked.exact y = p ∧ ∀ A, opOn (Tracked.onMachine A) y = p' A := by
      cases p with
      | evidence v e =>
        have h2 : ∀ A, ∃ e', p' A = .evidence v e' ∧ List.Forall₂ (Machine.Near ((acc A).q ^ k)) e' e := by
          intro A
          have := e2 A
          generalize p' A = y at this
          cases this with
          | evidence v e' e h => exact ⟨e', rfl, h⟩
        choose e' f1 f2 using h2
        obtain ⟨t, t1, t2⟩ := Tracked.given_list k e (hn v e (by simp)) e' f2
        refine ⟨.evidence v t, by rw [opOn, t1], fun A => by rw [opOn, t2, f1]⟩
      | observe v i => exact ⟨.observe v i, rfl, fun A => by have := e2 A; generalize p' A = y at this ⊢; cases this; rfl⟩
      | reset => exact ⟨.reset, rfl, fun A => by have := e2 A; generalize p' A = y at this ⊢; cases this; rfl⟩
      | priors b => exact ⟨.priors b, rfl, fun A => by have := e2 A; generalize p' A = y at this ⊢; cases this; rfl⟩
      | propagate => exact ⟨.propagate, rfl, fun A => by have := e2 A; generalize p' A = y at this ⊢; cases this; rfl⟩
      | mass => exact ⟨.mass, rfl, fun A => by have := e2 A; generalize p' A = y at this ⊢; cases this; rfl⟩
      | query v => exact ⟨.query v, rfl, fun A => by have := e2 A; generalize p' A = y at this ⊢; cases this; rfl⟩
    obtain ⟨y, y1, y2⟩ := key
    exact ⟨y :: x, by rw [List.map_cons, y1, g1], fun A => by rw [List.map_cons, y2, g2, e1]⟩

end

/-- what the machine of a setting has -/
def Setting.machine {f : NetFile K} {hist : List (Op K)} {k : Nat} (S : Setting f hist k) : Tracked (Setting.accuracy (f := f) (hist := hist) (k := k)) → Machine K S.R :=
  Tracked.onMachine S

theorem on_eq_ok {α β : Type} {f : α → β} {x : Res α} {b : β} (h : x.on f = ok b) : ∃ a, x = ok a ∧ f a = b := by
  cases x with
  | ok a => exact ⟨a, rfl, Res.ok.inj h⟩
  | ub => cases h

theorem valid_nonneg {f : NetFile K} {hist : List (Op K)} (hh : ∀ op ∈ hist, op.Valid f.net) : ∀ v e, Op.evidence v e ∈ hist → ∀ a ∈ e, 0 ≤ a :=
  fun _ _ he => (hh _ he).2.2

/-- the file and the history of all settings at once -/
theorem all_settings (k : Nat) {f : NetFile K} (hf : f.Valid) {hist : List (Op K)} (hh : ∀ op ∈ hist, op.Valid f.net) :
    ∃ (x : NetFile (Tracked (Setting.accuracy (f := f) (hist := hist) (k := k)))) (y : List (Op (Tracked (Setting.accuracy (f := f) (hist := hist) (k := k))))),
      netOn Tracked.exact x = f ∧ y.map (opOn Tracked.exact) = hist ∧
      ∀ S : Setting f hist k, netOn (Tracked.onMachine S) x = S.file ∧ y.map (opOn (Tracked.onMachine S)) = S.calls := by
  obtain ⟨x, x1, x2⟩ := given_file (acc := Setting.accuracy (f := f) (hist := hist) (k := k)) k hf.nonneg (fun S => S.file) (fun S => S.near_file)
  obtain ⟨y, y1, y2⟩ := given_calls (acc := Setting.accuracy (f := f) (hist := hist) (k := k)) k hist (valid_nonneg hh) (fun S => S.calls) (fun S => S.near_calls)
  exact ⟨x, y, x1, y1, fun S => ⟨x2 S, y2 S⟩⟩

/-! ## questions -/

/-- **C105**, questions after any history, whether or not inference was done last: there is a number of roundings that holds for all machines, such that each number reported
is the one reported by the exact calculation up to that many roundings. -/
theorem C105_history (ptr : Nat) {f : NetFile K} (hf : f.Valid) {hist : List (Op K)} (hh : ∀ op ∈ hist, op.Valid f.net) {v : Nat} (hv : v ∈ f.vars) (k : Nat) :
    ∃ (N : Nat) (m : Model K) (r : List K) (m1 : Model K), NetFile.runFile ptr f hist = ok m ∧ m.getProbability v = ok (some r, m1) ∧ r.length = f.card v ∧
      ∀ S : Setting f hist k, ∃ m' r' m1', NetFile.runFile ptr S.file S.calls = ok m' ∧ m'.getProbability v = ok (some r', m1') ∧
        List.Forall₂ (Machine.Near ((1 + S.e) ^ N)) r' r := by
  obtain ⟨m, h1, h2⟩ := C104_questions ptr hf.toFits (hist := hist) (fun op ho => by
    have := hh op ho
    cases op with
    | evidence v e => exact ⟨this.1, this.2.1⟩
    | _ => exact this)
  obtain ⟨r, m1, h3, h4⟩ := h2 v hv
  obtain ⟨x, y, x1, y1, xy⟩ := all_settings k hf hh
  have e1 := NetFile.on_runFile Tracked.hom_exact ptr x y
  rw [x1, y1, h1] at e1
  obtain ⟨mt, t1, t2⟩ := on_eq_ok e1.symm
  have e2 := Model.on_getProbability Tracked.hom_exact mt v
  rw [t2, h3] at e2
  obtain ⟨⟨rt, mt1⟩, t3, t4⟩ := on_eq_ok e2.symm
  obtain ⟨t5, t6⟩ := Prod.mk.inj t4
  cases rt with
  | none => cases t5
  | some rt =>
    have t7 : rt.map Tracked.exact = r := Option.some.inj t5
    obtain ⟨N, hN⟩ := Tracked.counted rt
    refine ⟨N, m, r, m1, h1, h3, h4, fun S => ?_⟩
    have f1 := NetFile.on_runFile (Tracked.hom_machine S) ptr x y
    rw [(xy S).1, (xy S).2, t1] at f1
    have f2 := Model.on_getProbability (Tracked.hom_machine S) mt v
    rw [t3] at f2
    refine ⟨mt.on S.machine, rt.map S.machine, mt1.on S.machine, f1, f2, ?_⟩
    rw [← t7]
    exact Tracked.near_list hN S

/-- **C105**, questions after inference: the exact numbers are the conditional probabilities. -/
theorem C105_questions (ptr : Nat) {f : NetFile K} (hf : f.Valid) {ops asks : List (Op K)} (ho : ∀ op ∈ ops, op.Valid f.net)
    (ha : ∀ op ∈ asks, op.Valid f.net) (hq : ∀ op ∈ asks, op.IsQuestion) (hw : totalWeight f.net ((World.fresh f.net).after f.net ops) ≠ 0)
    {v : Nat} (hv : v ∈ f.vars) (k : Nat) :
    ∃ N : Nat, ∀ S : Setting f (ops ++ .propagate :: asks) k, ∃ m r m', NetFile.runFile ptr S.file S.calls = ok m ∧ m.getProbability v = ok (some r, m') ∧
      r.length = f.card v ∧ ∀ i, i < f.card v → ∃ b, r[i]? = some (.num b) ∧ 0 ≤ b ∧
        Within ((1 + S.e) ^ N) b (stateWeight f.net ((World.fresh f.net).after f.net ops) v i / totalWeight f.net ((World.fresh f.net).after f.net ops)) := by
  obtain ⟨m, r, m1, h1, h2, h3, h4, h5⟩ := C33_posterior_is_bayes ptr hf ho ha hq hv
  obtain ⟨N, n, s, n1, g1, g2, g3, g4⟩ := C105_history ptr hf (hist := ops ++ .propagate :: asks) (by
    intro op hop
    rcases List.mem_append.1 hop with h | h
    · exact ho op h
    · rcases List.mem_cons.1 h with rfl | h
      · trivial
      · exact ha op h) hv k
  obtain rfl : m = n := Res.ok.inj (h1.symm.trans g1)
  obtain ⟨e1, e2⟩ := Prod.mk.inj (Res.ok.inj (h2.symm.trans g2))
  obtain rfl := Option.some.inj e1
  refine ⟨N, fun S => ?_⟩
  obtain ⟨m', r', m1', f1, f2, f3⟩ := g4 S
  refine ⟨m', r', m1', f1, f2, by rw [f3.length_eq, h3], fun i hi => ?_⟩
  have hr := (h5 hw).2 i hi
  have hi' : i < r'.length := by rw [f3.length_eq, h3]; exact hi
  have hir : i < r.length := by rw [h3]; exact hi
  obtain ⟨b, b1, b2, b3⟩ := f3.get hi' hir
  rw [List.getElem?_eq_getElem hir] at hr
  refine ⟨b, ?_, b2, ?_⟩
  · rw [List.getElem?_eq_getElem hi']
    exact congrArg some b1
  · rw [← Option.some.inj hr]
    exact b3

/-! ## time series -/

theorem counted_all {ι : Type} {acc : ι → Accuracy K} (l : List (List (List (Tracked acc)))) : ∃ n, ∀ row ∈ l, ∀ r ∈ row, ∀ a ∈ r, a.count ≤ n := by
  obtain ⟨n, h⟩ := Tracked.counted l.flatten.flatten
  exact ⟨n, fun row hrow r hr a ha => h a (List.mem_flatten.2 ⟨r, List.mem_flatten.2 ⟨row, hrow, hr⟩, ha⟩)⟩

theorem near_rows {ι : Type} {acc : ι → Accuracy K} {l : List (List (List (Tracked acc)))} {n : Nat} (h : ∀ row ∈ l, ∀ r ∈ row, ∀ a ∈ r, a.count ≤ n) (A : ι)
    {t i : Nat} {r : List K} (hr : ((l.map (List.map (List.map Tracked.exact)))[t]?.bind (fun (row : List (List K)) => row[i]?)) = some r) :
    ∃ r', ((l.map (List.map (List.map (Tracked.onMachine A))))[t]?.bind (fun (row : List (List (Machine K (acc A).R))) => row[i]?)) = some r' ∧
      List.Forall₂ (Machine.Near ((acc A).q ^ n)) r' r := by
  rw [List.getElem?_map] at hr ⊢
  cases ht : l[t]? with
  | none => rw [ht] at hr; cases hr
  | some row =>
    rw [ht] at hr
    simp only [Option.map_some, Option.bind_some, List.getElem?_map] at hr ⊢
    cases hi : row[i]? with
    | none => rw [hi] at hr; cases hr
    | some x =>
      rw [hi] at hr
      obtain rfl : x.map Tracked.exact = r := Option.some.inj hr
      exact ⟨x.map (Tracked.onMachine A), rfl, Tracked.near_list (h row (List.mem_of_getElem? ht) x (List.mem_of_getElem? hi)) A⟩

/-- **C105**, smoothing (the log likelihood not asked for): the answers are the exact ones, as in C96, up to a number of roundings that holds for all machines. -/
theorem C105_smoothing (ptr : Nat) {f : NetFile K} (hf : f.Valid) (htm : f.Temporal) {hist : List (Op K)} (hh : ∀ op ∈ hist, op.Valid f.net)
    (marked : Nat → Bool) {ts : TimeSeries} (hts : ts.WellFormed) (hnd : ts.observed.Nodup) (hob : ∀ v ∈ ts.observed, v ∈ f.vars)
    {vars : List Nat} (hvars : ∀ v ∈ vars, v ∈ f.vars) (k : Nat) :
    ∃ N : Nat, ∀ S : Setting f hist k, ∃ m0 s m results ll m', NetFile.parseModel ptr S.file = ok (some (m0, s)) ∧ m0.performAll S.calls = ok m ∧
      forwardBackward none s marked ts vars m = ok (results, ll, m') ∧ results.length = ts.length ∧
      ∀ t i v : Nat, t < ts.length → vars[i]? = some v →
        ∃ r, (results[t]?.bind (fun (row : List (List (Machine K S.R))) => row[i]?)) = some r ∧
          List.Forall₂ (Machine.Near ((1 + S.e) ^ N)) r (f.answer (dataSees marked ts.observed ts.data) ts.length t v) := by
  obtain ⟨m0, s, m, results, ll, m', h1, h2, h3, h4, h5⟩ := C96_smoothing ptr hf htm hh none marked hts hnd hob hvars
  obtain ⟨x, y, x1, y1, xy⟩ := all_settings k hf hh
  have e1 := NetFile.on_parseModel Tracked.hom_exact ptr x
  rw [x1, h1] at e1
  obtain ⟨o, t1, t2⟩ := on_eq_ok e1.symm
  cases o with
  | none => cases t2
  | some o =>
    obtain ⟨mt0, st⟩ := o
    obtain ⟨t3, rfl⟩ := Prod.mk.inj (Option.some.inj t2)
    have e2 := on_performAll Tracked.hom_exact y mt0
    rw [y1, t3, h2] at e2
    obtain ⟨mt, t4, t5⟩ := on_eq_ok e2.symm
    have e3 := on_forwardBackward Tracked.hom_exact st marked ts vars mt
    rw [t5] at e3
    erw [h3] at e3
    obtain ⟨⟨rt, lt, mt'⟩, t6, t7⟩ := on_eq_ok e3.symm
    obtain ⟨t8, _⟩ := Prod.mk.inj t7
    obtain ⟨N, hN⟩ := counted_all rt
    refine ⟨N, fun S => ?_⟩
    have f1 := NetFile.on_parseModel (Tracked.hom_machine S) ptr x
    rw [(xy S).1, t1] at f1
    have f2 := on_performAll (Tracked.hom_machine S) y mt0
    rw [(xy S).2, t4] at f2
    have f3 := on_forwardBackward (Tracked.hom_machine S) st marked ts vars mt
    rw [t6] at f3
    refine ⟨mt0.on S.machine, st, mt.on S.machine, rt.map (List.map (List.map S.machine)), S.machine lt, mt'.on S.machine, f1, f2, f3, ?_, fun t i v ht hv => ?_⟩
    · rw [List.length_map, ← h4, ← t8, List.length_map]
    · have := h5 t i v ht hv
      rw [← t8] at this
      exact near_rows hN S this

/-- **C105**, filtering (the log likelihood not asked for). -/
theorem C105_filtering (ptr : Nat) {f : NetFile K} (hf : f.Valid) (htm : f.Temporal) {hist : List (Op K)} (hh : ∀ op ∈ hist, op.Valid f.net)
    (marked : Nat → Bool) {ts : TimeSeries} (hts : ts.WellFormed) (hnd : ts.observed.Nodup) (hob : ∀ v ∈ ts.observed, v ∈ f.vars)
    {vars : List Nat} (hvars : ∀ v ∈ vars, v ∈ f.vars) (k : Nat) :
    ∃ N : Nat, ∀ S : Setting f hist k, ∃ m0 s m results ll m', NetFile.parseModel ptr S.file = ok (some (m0, s)) ∧ m0.performAll S.calls = ok m ∧
      forwardInference none s marked ts vars m = ok (results, ll, m') ∧ results.length = ts.length ∧
      ∀ t i v : Nat, t < ts.length → vars[i]? = some v →
        ∃ r, (results[t]?.bind (fun (row : List (List (Machine K S.R))) => row[i]?)) = some r ∧
          List.Forall₂ (Machine.Near ((1 + S.e) ^ N)) r (f.answer (dataSees marked ts.observed ts.data) (t + 1) t v) := by
  obtain ⟨m0, s, m, results, ll, m', h1, h2, h3, h4, h5⟩ := C96_filtering ptr hf htm hh none marked hts hnd hob hvars
  obtain ⟨x, y, x1, y1, xy⟩ := all_settings k hf hh
  have e1 := NetFile.on_parseModel Tracked.hom_exact ptr x
  rw [x1, h1] at e1
  obtain ⟨o, t1, t2⟩ := on_eq_ok e1.symm
  cases o with
  | none => cases t2
  | some o =>
    obtain ⟨mt0, st⟩ := o
    obtain ⟨t3, rfl⟩ := Prod.mk.inj (Option.some.inj t2)
    have e2 := on_performAll Tracked.hom_exact y mt0
    rw [y1, t3, h2] at e2
    obtain ⟨mt, t4, t5⟩ := on_eq_ok e2.symm
    have e3 := on_forwardInference Tracked.hom_exact st marked ts vars mt
    rw [t5] at e3
    erw [h3] at e3
    obtain ⟨⟨rt, lt, mt'⟩, t6, t7⟩ := on_eq_ok e3.symm
    obtain ⟨t8, _⟩ := Prod.mk.inj t7
    obtain ⟨N, hN⟩ := counted_all rt
    refine ⟨N, fun S => ?_⟩
    have f1 := NetFile.on_parseModel (Tracked.hom_machine S) ptr x
    rw [(xy S).1, t1] at f1
    have f2 := on_performAll (Tracked.hom_machine S) y mt0
    rw [(xy S).2, t4] at f2
    have f3 := on_forwardInference (Tracked.hom_machine S) st marked ts vars mt
    rw [t6] at f3
    refine ⟨mt0.on S.machine, st, mt.on S.machine, rt.map (List.map (List.map S.machine)), S.machine lt, mt'.on S.machine, f1, f2, f3, ?_, fun t i v ht hv => ?_⟩
    · rw [List.length_map, ← h4, ← t8, List.length_map]
    · have := h5 t i v ht hv
      rw [← t8] at this
      exact near_rows hN S this

/-! ## fine roundings -/

theorem pow_near (N : Nat) {e : K} (h0 : 0 ≤ e) (h1 : e ≤ 1) : (1 + e) ^ N ≤ 1 + (2 ^ N - 1) * e := by
  induction N with
  | zero => simp
  | succ N ih =>
    have h2 : (1 : K) ≤ 2 ^ N := one_le_pow₀ (by norm_num)
    have h3 : (0 : K) ≤ 1 + e := by linarith
    have h4 : (2 ^ N - 1) * e * e ≤ (2 ^ N - 1) * e := mul_le_of_le_one_right (mul_nonneg (by linarith) h0) h1
    calc (1 + e) ^ (N + 1) = (1 + e) ^ N * (1 + e) := pow_succ _ _
      _ ≤ (1 + (2 ^ N - 1) * e) * (1 + e) := mul_le_mul_of_nonneg_right ih h3
      _ = 1 + e + (2 ^ N - 1) * e + (2 ^ N - 1) * e * e := by ring
      _ ≤ 1 + e + (2 ^ N - 1) * e + (2 ^ N - 1) * e := by linarith
      _ = 1 + (2 ^ (N + 1) - 1) * e := by rw [pow_succ]; ring

theorem fine_enough (N : Nat) {M d : K} (hM : 0 ≤ M) (hd : 0 < d) :
    ∃ e0, 0 < e0 ∧ ∀ e, 0 ≤ e → e ≤ e0 → ∀ a b, a ≤ M → 0 ≤ b → Within ((1 + e) ^ N) b a → |b - a| ≤ d := by
  have hc : (0 : K) ≤ 2 ^ N - 1 := by
    have : (1 : K) ≤ 2 ^ N := one_le_pow₀ (by norm_num)
    linarith
  have hD : (0 : K) < M * 2 ^ N * (2 ^ N - 1) + 1 := by positivity
  refine ⟨min 1 (d / (M * 2 ^ N * (2 ^ N - 1) + 1)), lt_min one_pos (div_pos hd hD), ?_⟩
  intro e h0 h1 a b ha hb h
  have he1 : e ≤ 1 := h1.trans (min_le_left _ _)
  have he2 : e * (M * 2 ^ N * (2 ^ N - 1) + 1) ≤ d := (le_div_iff₀ hD).1 (h1.trans (min_le_right _ _))
  have hq := pow_near N h0 he1
  have hq1 : (1 : K) ≤ (1 + e) ^ N := one_le_pow₀ (by linarith)
  have hq2 : (1 + e) ^ N ≤ 2 ^ N := pow_le_pow_left₀ (by linarith) (by linarith) N
  have ha0 : 0 ≤ a := by
    by_contra hn
    have := mul_neg_of_neg_of_pos (not_le.1 hn) (lt_of_lt_of_le one_pos hq1)
    linarith [h.1]
  generalize (1 + e) ^ N = q at *
  have hp1 : (1 : K) ≤ 2 ^ N := by linarith
  have hle : M * 2 ^ N * ((2 ^ N - 1) * e) ≤ d := by nlinarith
  have hb1 : b ≤ M * 2 ^ N := h.1.trans (mul_le_mul ha hq2 (by linarith) hM)
  rw [abs_le]
  constructor
  · have : a - b ≤ b * (q - 1) := by linarith [h.2]
    have h5 : b * (q - 1) ≤ M * 2 ^ N * ((2 ^ N - 1) * e) := mul_le_mul hb1 (by linarith) (by linarith) (by positivity)
    linarith
  · have : b - a ≤ a * (q - 1) := by linarith [h.1]
    have h5 : a * (q - 1) ≤ M * 2 ^ N * ((2 ^ N - 1) * e) := by
      refine mul_le_mul (ha.trans ?_) (by linarith) (by linarith) (by positivity)
      exact le_mul_of_one_le_right hM hp1
    linarith

/-- **C105**, questions: the finer the rounding, the nearer the answers are to the conditional probabilities. -/
theorem C105_questions_limit (ptr : Nat) {f : NetFile K} (hf : f.Valid) {ops asks : List (Op K)} (ho : ∀ op ∈ ops, op.Valid f.net)
    (ha : ∀ op ∈ asks, op.Valid f.net) (hq : ∀ op ∈ asks, op.IsQuestion) (hw : totalWeight f.net ((World.fresh f.net).after f.net ops) ≠ 0)
    {v : Nat} (hv : v ∈ f.vars) (k : Nat) {d : K} (hd : 0 < d) :
    ∃ e0, 0 < e0 ∧ ∀ S : Setting f (ops ++ .propagate :: asks) k, S.e ≤ e0 → ∃ m r m', NetFile.runFile ptr S.file S.calls = ok m ∧
      m.getProbability v = ok (some r, m') ∧ r.length = f.card v ∧ ∀ i, i < f.card v → ∃ b, r[i]? = some (.num b) ∧
        |b - stateWeight f.net ((World.fresh f.net).after f.net ops) v i / totalWeight f.net ((World.fresh f.net).after f.net ops)| ≤ d := by
  obtain ⟨N, hN⟩ := C105_questions ptr hf ho ha hq hw hv k
  obtain ⟨_, r0, _, _, _, h3, h4, h5⟩ := C33_posterior_is_bayes ptr hf ho ha hq hv
  obtain ⟨h5, h6⟩ := h5 hw
  obtain ⟨e0, g1, g2⟩ := fine_enough N (zero_le_one (α := K)) hd
  refine ⟨e0, g1, fun S hS => ?_⟩
  obtain ⟨m, r, m', f1, f2, f3, f4⟩ := hN S
  refine ⟨m, r, m', f1, f2, f3, fun i hi => ?_⟩
  obtain ⟨b, b1, b2, b3⟩ := f4 i hi
  refine ⟨b, b1, g2 S.e S.accurate.nonneg hS _ b ?_ b2 b3⟩
  have := List.single_le_sum h4 _ (List.mem_of_getElem? (h6 i hi))
  rwa [h5] at this

theorem bounded_list (l : List K) : ∃ M, 0 ≤ M ∧ ∀ a ∈ l, a ≤ M := by
  induction l with
  | nil => exact ⟨0, le_rfl, by simp⟩
  | cons a l ih =>
    obtain ⟨M, h0, h⟩ := ih
    refine ⟨max a M, le_max_of_le_right h0, fun b hb => ?_⟩
    rcases List.mem_cons.1 hb with rfl | hb
    · exact le_max_left _ _
    · exact (h b hb).trans (le_max_right _ _)

theorem bounded_answers (g : Nat → Nat → List K) (n : Nat) (vars : List Nat) : ∃ M, 0 ≤ M ∧ ∀ t < n, ∀ v ∈ vars, ∀ a ∈ g t v, a ≤ M := by
  obtain ⟨M, h0, h⟩ := bounded_list ((List.range n).flatMap fun t => vars.flatMap fun v => g t v)
  exact ⟨M, h0, fun t ht v hv a ha => h a (List.mem_flatMap.2 ⟨t, List.mem_range.2 ht, List.mem_flatMap.2 ⟨v, hv, ha⟩⟩)⟩

/-- The machine holds a number at most `d` away from `a`. -/
def Close {R : Rounding K} (d : K) (x : Machine K R) (a : K) : Prop := ∃ b, x = .num b ∧ |b - a| ≤ d

theorem near_close {R : Rounding K} {q d M : K} {r : List (Machine K R)} {l : List K} (h : List.Forall₂ (Machine.Near q) r l) (hM : ∀ a ∈ l, a ≤ M)
    (hq : ∀ a b, a ≤ M → 0 ≤ b → Within q b a → |b - a| ≤ d) : List.Forall₂ (Close d) r l := by
  induction h with
  | nil => exact List.Forall₂.nil
  | cons h1 h2 ih =>
    obtain ⟨b, b1, b2, b3⟩ := h1
    exact List.Forall₂.cons ⟨b, b1, hq _ b (hM _ (by simp)) b2 b3⟩ (ih fun a ha => hM a (by simp [ha]))

/-- **C105**, smoothing: the finer the rounding, the nearer the answers. -/
theorem C105_smoothing_limit (ptr : Nat) {f : NetFile K} (hf : f.Valid) (htm : f.Temporal) {hist : List (Op K)} (hh : ∀ op ∈ hist, op.Valid f.net)
    (marked : Nat → Bool) {ts : TimeSeries} (hts : ts.WellFormed) (hnd : ts.observed.Nodup) (hob : ∀ v ∈ ts.observed, v ∈ f.vars)
    {vars : List Nat} (hvars : ∀ v ∈ vars, v ∈ f.vars) (k : Nat) {d : K} (hd : 0 < d) :
    ∃ e0, 0 < e0 ∧ ∀ S : Setting f hist k, S.e ≤ e0 → ∃ m0 s m results ll m', NetFile.parseModel ptr S.file = ok (some (m0, s)) ∧ m0.performAll S.calls = ok m ∧
      forwardBackward none s marked ts vars m = ok (results, ll, m') ∧ results.length = ts.length ∧
      ∀ t i v : Nat, t < ts.length → vars[i]? = some v →
        ∃ r, (results[t]?.bind (fun (row : List (List (Machine K S.R))) => row[i]?)) = some r ∧
          List.Forall₂ (Close d) r (f.answer (dataSees marked ts.observed ts.data) ts.length t v) := by
  obtain ⟨N, hN⟩ := C105_smoothing ptr hf htm hh marked hts hnd hob hvars k
  obtain ⟨M, hM0, hM⟩ := bounded_answers (fun t v => f.answer (dataSees marked ts.observed ts.data) ts.length t v) ts.length vars
  obtain ⟨e0, g1, g2⟩ := fine_enough N hM0 hd
  refine ⟨e0, g1, fun S hS => ?_⟩
  obtain ⟨m0, s, m, results, ll, m', h1, h2, h3, h4, h5⟩ := hN S
  refine ⟨m0, s, m, results, ll, m', h1, h2, h3, h4, fun t i v ht hv => ?_⟩
  obtain ⟨r, r1, r2⟩ := h5 t i v ht hv
  exact ⟨r, r1, near_close r2 (hM t ht v (List.mem_of_getElem? hv)) (g2 S.e S.accurate.nonneg hS)⟩

/-- **C105**, filtering: the finer the rounding, the nearer the answers. -/
theorem C105_filtering_limit (ptr : Nat) {f : NetFile K} (hf : f.Valid) (htm : f.Temporal) {hist : List (Op K)} (hh : ∀ op ∈ hist, op.Valid f.net)
    (marked : Nat → Bool) {ts : TimeSeries} (hts : ts.WellFormed) (hnd : ts.observed.Nodup) (hob : ∀ v ∈ ts.observed, v ∈ f.vars)
    {vars : List Nat} (hvars : ∀ v ∈ vars, v ∈ f.vars) (k : Nat) {d : K} (hd : 0 < d) :
    ∃ e0, 0 < e0 ∧ ∀ S : Setting f hist k, S.e ≤ e0 → ∃ m0 s m results ll m', NetFile.parseModel ptr S.file = ok (some (m0, s)) ∧ m0.performAll S.calls = ok m ∧
      forwardInference none s marked ts vars m = ok (results, ll, m') ∧ results.length = ts.length ∧
      ∀ t i v : Nat, t < ts.length → vars[i]? = some v →
        ∃ r, (results[t]?.bind (fun (row : List (List (Machine K S.R))) => row[i]?)) = some r ∧
          List.Forall₂ (Close d) r (f.answer (dataSees marked ts.observed ts.data) (t + 1) t v) := by
  obtain ⟨N, hN⟩ := C105_filtering ptr hf htm hh marked hts hnd hob hvars k
  obtain ⟨M, hM0, hM⟩ := bounded_answers (fun t v => f.answer (dataSees marked ts.observed ts.data) (t + 1) t v) ts.length vars
  obtain ⟨e0, g1, g2⟩ := fine_enough N hM0 hd
  refine ⟨e0, g1, fun S hS => ?_⟩
  obtain ⟨m0, s, m, results, ll, m', h1, h2, h3, h4, h5⟩ := hN S
  refine ⟨m0, s, m, results, ll, m', h1, h2, h3, h4, fun t i v ht hv => ?_⟩
  obtain ⟨r, r1, r2⟩ := h5 t i v ht hv
  exact ⟨r, r1, near_close r2 (hM t ht v (List.mem_of_getElem? hv)) (g2 S.e S.accurate.nonneg hS)⟩

/-! ## settings exist -/

theorem near_rounded {R : Rounding K} {e : K} (h : Accurate R e) {l : List K} (hl : ∀ a ∈ l, 0 ≤ a) :
    List.Forall₂ (Machine.Near ((1 + e) ^ 1)) (l.map (fun a => (.num (R.fl a) : Machine K R))) l := by
  induction l with
  | nil => exact List.Forall₂.nil
  | cons a l ih =>
    refine List.Forall₂.cons ⟨R.fl a, rfl, Accuracy.fl_nonneg ⟨R, e, h⟩ (hl a (by simp)), ?_⟩ (ih fun b hb => hl b (by simp [hb]))
    rw [pow_one]
    exact h.near a (hl a (by simp))

/-- Every machine whose roundings are accurate has a setting: all numbers are rounded once when they are read. -/
def onceRounded (R : Rounding K) (e : K) (h : Accurate R e) {f : NetFile K} (hf : f.Valid) {hist : List (Op K)} (hh : ∀ op ∈ hist, op.Valid f.net) : Setting f hist 1 where
  R := R
  e := e
  accurate := h
  file := { vars := f.vars, card := f.card, next := f.next, pots := f.pots.map (fun q =>
    { child := q.child, parents := q.parents, table := { card := q.table.card, data := q.table.data.map (fun a => .num (R.fl a)) } }) }
  calls := hist.map (opOn (fun a => .num (R.fl a)))
  near_file := by
    refine ⟨rfl, rfl, rfl, ?_⟩
    show List.Forall₂ _ (f.pots.map _) f.pots
    rw [List.forall₂_map_left_iff, List.forall₂_same]
    exact fun q hq => ⟨rfl, rfl, rfl, near_rounded h (hf.nonneg q hq)⟩
  near_calls := by
    rw [List.forall₂_map_left_iff, List.forall₂_same]
    intro op hop
    have := hh op hop
    cases op with
    | evidence v e => exact .evidence v _ e (near_rounded h this.2.2)
    | observe v i => exact .observe v i
    | reset => exact .reset
    | priors b => exact .priors b
    | propagate => exact .propagate
    | mass => exact .mass
    | query v => exact .query v

/-! ## machines with `p` binary digits after the first and any exponent, which cut off the rest -/

section
variable {F : Type} [Field F] [LinearOrder F] [IsStrictOrderedRing F] [FloorRing F]

/-- the place of the last digit -/
def lastDigit (p : Nat) (x : F) : F := 2 ^ (Int.log 2 x - p)

/-- cutting off -/
def cutOff (p : Nat) (x : F) : F := if x ≤ 0 then 0 else ⌊x / lastDigit p x⌋ * lastDigit p x

theorem lastDigit_pos (p : Nat) (x : F) : 0 < lastDigit p x := zpow_pos (by norm_num) _

theorem cutOff_le (p : Nat) {x : F} (h : 0 < x) : cutOff p x ≤ x := by
  rw [cutOff, if_neg (not_le.2 h)]
  exact (le_div_iff₀ (lastDigit_pos p x)).1 (Int.floor_le _)

theorem lt_cutOff (p : Nat) {x : F} (h : 0 < x) : x < cutOff p x + lastDigit p x := by
  rw [cutOff, if_neg (not_le.2 h)]
  have := (div_lt_iff₀ (lastDigit_pos p x)).1 (Int.lt_floor_add_one (x / lastDigit p x))
  linarith

theorem power_split (p : Nat) (x : F) : (2 : F) ^ Int.log 2 x = ((2 ^ p : ℤ) : F) * lastDigit p x := by
  unfold lastDigit
  push_cast
  rw [← zpow_natCast, ← zpow_add₀ (by norm_num)]
  congr 1
  ring

theorem power_le_cutOff (p : Nat) {x : F} (h : 0 < x) : (2 : F) ^ Int.log 2 x ≤ cutOff p x := by
  rw [cutOff, if_neg (not_le.2 h), power_split p x]
  refine mul_le_mul_of_nonneg_right ?_ (lastDigit_pos p x).le
  have h1 : (2 ^ p : ℤ) ≤ ⌊x / lastDigit p x⌋ := by
    rw [Int.le_floor, le_div_iff₀ (lastDigit_pos p x), ← power_split]
    exact Int.zpow_log_le_self (b := 2) (by norm_num) h
  exact_mod_cast h1

theorem cutOff_pos (p : Nat) {x : F} (h : 0 < x) : 0 < cutOff p x := lt_of_lt_of_le (zpow_pos (by norm_num) _) (power_le_cutOff p h)

theorem log_cutOff (p : Nat) {x : F} (h : 0 < x) : Int.log 2 (cutOff p x) = Int.log 2 x := by
  apply le_antisymm
  · exact Int.log_mono_right (cutOff_pos p h) (cutOff_le p h)
  · exact (Int.zpow_le_iff_le_log (b := 2) (by norm_num) (cutOff_pos p h)).1 (power_le_cutOff p h)

/-- The machine that cuts off. -/
def cutting (F : Type) [Field F] [LinearOrder F] [IsStrictOrderedRing F] [FloorRing F] (p : Nat) : Rounding F where
  fl := cutOff p
  mono := by
    intro a b h
    by_cases ha : a ≤ 0
    · rw [cutOff, if_pos ha]
      by_cases hb : b ≤ 0
      · rw [cutOff, if_pos hb]
      · exact (cutOff_pos p (not_le.1 hb)).le
    · have ha' := not_le.1 ha
      have hb' := lt_of_lt_of_le ha' h
      rcases lt_or_eq_of_le (Int.log_mono_right (b := 2) ha' h) with hl | hl
      · refine (cutOff_le p ha').trans (le_trans ?_ (power_le_cutOff p hb'))
        refine (Int.lt_zpow_succ_log_self (b := 2) (by norm_num) a).le.trans ?_
        exact zpow_le_zpow_right₀ (by norm_num) hl
      · have e : lastDigit p a = lastDigit p b := by rw [lastDigit, lastDigit, hl]
        rw [cutOff, cutOff, if_neg ha, if_neg (not_le.2 hb'), e]
        refine mul_le_mul_of_nonneg_right ?_ (lastDigit_pos p b).le
        exact_mod_cast Int.floor_le_floor (div_le_div_of_nonneg_right h (lastDigit_pos p b).le)
  zero := by rw [cutOff, if_pos le_rfl]
  one := by
    have h1 := cutOff_le p (one_pos (α := F))
    have h2 := power_le_cutOff p (one_pos (α := F))
    rw [Int.log_one_right, zpow_zero] at h2
    exact le_antisymm h1 h2
  idem := by
    intro x
    by_cases h : x ≤ 0
    · rw [cutOff, if_pos (by rw [cutOff, if_pos h]), cutOff, if_pos h]
    · have h' := not_le.1 h
      have e : lastDigit p (cutOff p x) = lastDigit p x := by rw [lastDigit, log_cutOff p h', lastDigit]
      rw [cutOff, if_neg (not_le.2 (cutOff_pos p h')), e, cutOff, if_neg h, mul_div_cancel_right₀ _ (lastDigit_pos p x).ne', Int.floor_intCast]

/-- Its relative errors are at most `1 / 2 ^ p`. -/
theorem cutting_accurate (p : Nat) : Accurate (cutting F p) (1 / 2 ^ p) where
  nonneg := by positivity
  near := by
    intro x hx
    rcases lt_or_eq_of_le hx with h | h
    · have h1 := cutOff_le p h
      have h2 := lt_cutOff p h
      have h3 := power_le_cutOff p h
      rw [power_split p x] at h3
      push_cast at h3
      have h4 : (0 : F) < 2 ^ p := by positivity
      constructor
      · refine h1.trans (le_mul_of_one_le_right hx ?_)
        have : (0 : F) ≤ 1 / 2 ^ p := by positivity
        linarith
      · have h5 : lastDigit p x ≤ cutOff p x * (1 / 2 ^ p) := by
          rw [mul_one_div, le_div_iff₀ h4]
          linarith
        show x ≤ cutOff p x * (1 + 1 / 2 ^ p)
        linarith
    · subst h
      rw [(cutting F p).zero]
      constructor <;> simp

end

/-- Conditional probabilities after contradictory evidence: there is one bound for all machines with `p` digits, and a concrete machine is one of them. -/
example : ∃ N : Nat, ∀ p : Nat, ∀ S : Setting twoNodes (changeOfMind ++ .propagate :: []) 1, S.e = 1 / 2 ^ p → ∃ m r m', NetFile.runFile 8 S.file S.calls = ok m ∧
    m.getProbability 1 = ok (some r, m') ∧ r.length = 2 ∧ ∀ i, i < 2 → ∃ b, r[i]? = some (.num b) ∧ 0 ≤ b ∧
      Within ((1 + 1 / 2 ^ p) ^ N) b (stateWeight twoNodes.net ((World.fresh twoNodes.net).after twoNodes.net changeOfMind) 1 i /
        totalWeight twoNodes.net ((World.fresh twoNodes.net).after twoNodes.net changeOfMind)) := by
  have hw : totalWeight twoNodes.net ((World.fresh twoNodes.net).after twoNodes.net changeOfMind) ≠ 0 := by
    obtain ⟨m, m', h1, h2⟩ := C34_mass_is_likelihood 8 twoNodes_valid changeOfMind_valid (asks := []) (by simp) (by simp)
    have h3 : massOf (changeOfMind ++ [.propagate]) = some (totalWeight twoNodes.net ((World.fresh twoNodes.net).after twoNodes.net changeOfMind)) := by
      unfold massOf
      rw [h1]
      show (match m.probMass with | ok (k, _) => some k | ub => none) = _
      rw [h2]
    have h4 : massOf (changeOfMind ++ [.propagate]) ≠ some 0 := by decide +kernel
    intro h
    rw [h] at h3
    exact h4 h3
  obtain ⟨N, h⟩ := C105_questions 8 twoNodes_valid changeOfMind_valid (asks := []) (by simp) (by simp) hw (v := 1) (by decide) 1
  refine ⟨N, fun p S hS => ?_⟩
  rw [← hS]
  exact h S

theorem changeOfMind_propagate : ∀ op ∈ changeOfMind ++ [.propagate], op.Valid twoNodes.net := by
  intro op hop
  rcases List.mem_append.1 hop with h | h
  · exact changeOfMind_valid op h
  · rw [List.mem_singleton.1 h]
    trivial

/-- the setting of a machine with `p` digits -/
def digits (p : Nat) : Setting twoNodes (changeOfMind ++ [.propagate]) 1 := onceRounded (cutting ℚ p) (1 / 2 ^ p) (cutting_accurate p) twoNodes_valid changeOfMind_propagate

example (p : Nat) : (digits p).e = 1 / 2 ^ p := rfl

/-- Smoothing and filtering, with contradictory and with possible series. -/
example : (∃ N : Nat, ∀ S : Setting hmm [] 1, ∃ m0 s m results ll m', NetFile.parseModel 8 S.file = ok (some (m0, s)) ∧ m0.performAll S.calls = ok m ∧
      forwardBackward none s (fun _ => true) sightings [1, 2] m = ok (results, ll, m') ∧ results.length = 3 ∧
      ∀ t i v : Nat, t < 3 → [1, 2][i]? = some v → ∃ r, (results[t]?.bind (fun (row : List (List (Machine ℚ S.R))) => row[i]?)) = some r ∧
        List.Forall₂ (Machine.Near ((1 + S.e) ^ N)) r (hmm.answer (dataSees (fun _ => true) sightings.observed sightings.data) 3 t v)) ∧
    ∃ e0 : ℚ, 0 < e0 ∧ ∀ S : Setting timeless [] 1, S.e ≤ e0 → ∃ m0 s m results ll m', NetFile.parseModel 8 S.file = ok (some (m0, s)) ∧ m0.performAll S.calls = ok m ∧
      forwardInference none s (fun _ => true) impossible [1, 2] m = ok (results, ll, m') ∧ results.length = impossible.length ∧
      ∀ t i v : Nat, t < impossible.length → [1, 2][i]? = some v → ∃ r, (results[t]?.bind (fun (row : List (List (Machine ℚ S.R))) => row[i]?)) = some r ∧
        List.Forall₂ (Close (1 / 1000)) r (timeless.answer (dataSees (fun _ => true) impossible.observed impossible.data) (t + 1) t v) := by
  have ht : timeless.Temporal := by
    refine ⟨?_, ?_, ?_⟩ <;> intro v hv <;> simp [timeless]
  exact ⟨C105_smoothing 8 hmm_valid hmm_temporal (by simp) _ sightings_wellFormed (by decide) (by decide) (by decide) 1,
    C105_filtering_limit 8 timeless_valid ht (by simp) _ impossible_wellFormed (by decide) (by decide) (by decide) 1 (by norm_num)⟩

/-- Machines are as accurate as wanted. -/
example (e0 : ℚ) (h : 0 < e0) : ∃ p, (digits p).e ≤ e0 := by
  obtain ⟨p, hp⟩ := exists_pow_lt_of_lt_one h (show (1 / 2 : ℚ) < 1 by norm_num)
  refine ⟨p, ?_⟩
  show 1 / 2 ^ p ≤ e0
  rw [← one_div_pow]
  exact hp.le

/-- With 3 digits the answer for variable 1 is `[7 / 64, 7 / 8]`, exact is `[1 / 9, 8 / 9]`. -/
example : ((NetFile.runFile 8 (digits 3).file (digits 3).calls).bind (fun m => m.getProbability 1)).bind (fun r => ok r.1) = ok (some [.num (7 / 64), .num (7 / 8)]) := by
  decide +kernel

end Nip.Props
