import Verif.MassInference
import Verif.Props.Accuracy
import Verif.Props.Ascent
import Mathlib.Analysis.SpecialFunctions.Log.Basic

/-!
# Rounding errors of the probability mass and the log likelihood: property C107

The mass of a tree is a sum over the cliques less a sum over the sepsets, so it is not enough that sums and products of numbers that are not negative are accurate: `SignedAccurate`
says that the roundings of negative numbers are accurate, too.
-/

namespace Nip.Props

open Res Spec

set_option linter.unusedSectionVars false
set_option synthInstance.maxSize 1000

variable {K : Type} [Field K] [LinearOrder K] [IsStrictOrderedRing K]

/-! ## vocabulary -/

/-- Rounding changes no number, whatever its sign, by more than a fraction `e` of it. -/
def SignedAccurate (R : Rounding K) (e : K) : Prop := ∀ z, |R.fl z - z| ≤ e * |z|

/-- A number is what it should be up to a fraction. -/
def UpTo (q b x : K) : Prop := |b - x| ≤ (q - 1) * x

/-- The log likelihood reported, given the probability masses before and after the data of each time slice are entered: the differences of the logarithms are added; a mass
of zero after data makes it the lowest number. -/
def reported {R : Rounding K} (g : Logs (Machine K R)) : Machine K R → List (K × K) → Machine K R
  | ll, [] => ll
  | ll, (b1, b2) :: rest => reported g (if b2 = 0 then g.lowest else if 0 < b1 ∧ 0 < b2 then ll + (g.log (.num b2) - g.log (.num b1)) else ll) rest

/-! ## the probability mass -/

theorem call_history {f : NetFile K} {ops asks : List (Op K)} (ho : ∀ op ∈ ops, op.Valid f.net) (ha : ∀ op ∈ asks, op.Valid f.net) :
    ∀ op ∈ ops ++ .propagate :: asks, op.Valid f.net := by
  intro op hop
  rcases List.mem_append.1 hop with h | h
  · exact ho op h
  · rcases List.mem_cons.1 h with rfl | h
    · trivial
    · exact ha op h

/-- **C107**, the probability mass after inference: there is a number of roundings that holds for all machines, such that the mass is the total weight up to that many roundings. -/
theorem C107_mass (ptr : Nat) {f : NetFile K} (hf : f.Valid) {ops asks : List (Op K)} (ho : ∀ op ∈ ops, op.Valid f.net)
    (ha : ∀ op ∈ asks, op.Valid f.net) (hq : ∀ op ∈ asks, op.IsQuestion) (k : Nat) :
    ∃ N : Nat, ∀ S : Setting f (ops ++ .propagate :: asks) k, SignedAccurate S.R S.e → ∃ m b m', NetFile.runFile ptr S.file S.calls = ok m ∧ m.probMass = ok (.num b, m') ∧
      UpTo ((1 + S.e) ^ N) b (totalWeight f.net ((World.fresh f.net).after f.net ops)) := by
  obtain ⟨m, h1, h2, h3⟩ := runFile_consistent ptr hf ho ha hq
  obtain ⟨x, y, x1, y1, xy⟩ := all_settings k hf (call_history ho ha)
  have e1 := NetFile.on_runFile Tracked.hom_exact ptr x y
  rw [x1, y1, h1] at e1
  obtain ⟨mt, t1, rfl⟩ := on_eq_ok e1.symm
  obtain ⟨N, mt', p1, p2⟩ := Model.mass_near h2.carries h3 (fun _ => 0)
  rw [repd_sum (net_local hf) _ _ fun v hv hn => absurd hv hn] at p2
  refine ⟨N, fun S hS => ?_⟩
  have f1 := NetFile.on_runFile (Tracked.hom_machine S) ptr x y
  rw [(xy S).1, (xy S).2, t1] at f1
  obtain ⟨b, q1, q2⟩ := p2 S hS
  exact ⟨mt.on S.machine, b, mt'.on S.machine, f1, q1, q2⟩

/-- **C107**, fine roundings: the mass is as near to the total weight as wanted, it is never negative, and it is zero exactly when the evidence is impossible. -/
theorem C107_mass_limit (ptr : Nat) {f : NetFile K} (hf : f.Valid) {ops asks : List (Op K)} (ho : ∀ op ∈ ops, op.Valid f.net)
    (ha : ∀ op ∈ asks, op.Valid f.net) (hq : ∀ op ∈ asks, op.IsQuestion) (k : Nat) {d : K} (hd : 0 < d) :
    ∃ e0, 0 < e0 ∧ ∀ S : Setting f (ops ++ .propagate :: asks) k, SignedAccurate S.R S.e → S.e ≤ e0 →
      ∃ m b m', NetFile.runFile ptr S.file S.calls = ok m ∧ m.probMass = ok (.num b, m') ∧ 0 ≤ b ∧ |b - totalWeight f.net ((World.fresh f.net).after f.net ops)| ≤ d ∧
        (b = 0 ↔ totalWeight f.net ((World.fresh f.net).after f.net ops) = 0) := by
  obtain ⟨N, h⟩ := C107_mass ptr hf ho ha hq k
  have hW : 0 ≤ totalWeight f.net ((World.fresh f.net).after f.net ops) := by
    obtain ⟨m, h1, h2, h3⟩ := runFile_consistent ptr hf ho ha hq
    have key : sumOver f.net.card f.net.vars (repd f.net ((World.fresh f.net).after f.net ops)) (fun _ => 0) = totalWeight f.net ((World.fresh f.net).after f.net ops) := by
      rw [repd_sum (net_local hf) _ _ fun v hv hn => absurd hv hn]
      rfl
    rw [← key]
    exact sumOver_nonneg h2.nonneg _
  obtain ⟨W, hWe⟩ : ∃ W, W = totalWeight f.net ((World.fresh f.net).after f.net ops) := ⟨_, rfl⟩
  rw [← hWe] at hW
  simp only [← hWe] at h ⊢
  have hC : (0 : K) ≤ 2 ^ N - 1 := by
    have : (1 : K) ≤ 2 ^ N := one_le_pow₀ (by norm_num)
    linarith
  have hD : (0 : K) < (2 ^ N - 1) * W + 1 := by positivity
  have hD2 : (0 : K) < 2 * (2 ^ N - 1) + 1 := by positivity
  refine ⟨min 1 (min (1 / (2 * (2 ^ N - 1) + 1)) (d / ((2 ^ N - 1) * W + 1))), lt_min one_pos (lt_min (div_pos one_pos hD2) (div_pos hd hD)), fun S hS he => ?_⟩
  obtain ⟨m, b, m', g1, g2, g3⟩ := h S hS
  have he0 := S.accurate.nonneg
  have h1 : S.e ≤ 1 := he.trans (min_le_left _ _)
  have h2 : S.e * (2 * (2 ^ N - 1) + 1) ≤ 1 := (le_div_iff₀ hD2).1 (he.trans ((min_le_right _ _).trans (min_le_left _ _)))
  have h3 : S.e * ((2 ^ N - 1) * W + 1) ≤ d := (le_div_iff₀ hD).1 (he.trans ((min_le_right _ _).trans (min_le_right _ _)))
  have hp := pow_near N he0 h1
  have hlt : (1 + S.e) ^ N < 2 := by nlinarith
  have hoff : Off ((1 + S.e) ^ N) b W := g3
  refine ⟨m, b, m', g1, g2, hoff.nonneg hlt hW, ?_, fun hb => ?_, fun hw => hoff.zero hw⟩
  · refine (show |b - W| ≤ ((1 + S.e) ^ N - 1) * W from g3).trans ?_
    have : ((1 + S.e) ^ N - 1) * W ≤ (2 ^ N - 1) * S.e * W := mul_le_mul_of_nonneg_right (by linarith) hW
    nlinarith
  · by_contra hne
    have := hoff.pos hlt (lt_of_le_of_ne hW (Ne.symm hne))
    rw [hb] at this
    exact lt_irrefl _ this

/-! ## inference with the log likelihood -/

/-- The masses of a time slice on a machine: never negative after the data; if the data so far are possible, positive, and their ratio is the probability of the data of this
slice given the data before, up to a factor; if the data so far are impossible and the slices are linked, zero. -/
def SliceMasses (f : NetFile K) (seen : Nat → Nat → Int) (q : K) (t : Nat) (p : K × K) : Prop :=
  0 ≤ p.2 ∧ (f.unrolledTotal seen (t + 1) (fun _ => True) ≠ 0 → 0 < p.1 ∧ 0 < p.2 ∧ Within q (p.2 / p.1) (f.evidenceProb seen t)) ∧ (f.unrolledTotal seen (t + 1) (fun _ => True) = 0 → f.Links → p.2 = 0)

theorem slice_masses {f : NetFile K} {seen : Nat → Nat → Int} {q : K} (h1 : 1 ≤ q) (h2 : q < 2) {t : Nat} {p x : K × K} (ho : OffPair q p x) (hx : TrueMasses f seen t x) :
    SliceMasses f seen (q / (2 - q)) t p := by
  refine ⟨ho.2.nonneg h2 hx.2.1, fun ht => ?_, fun ht hl => ho.2.zero (hx.2.2.2 ht hl)⟩
  obtain ⟨x1, x2, x3⟩ := hx.2.2.1 ht
  refine ⟨ho.1.pos h2 x1, ho.2.pos h2 x2, ?_⟩
  rw [← x3]
  exact off_quotient h1 h2 x1 x2 ho.1 ho.2

theorem reported_eq {R : Rounding K} (g : Logs (Machine K R)) (ll : Machine K R) (ps : List (K × K)) : reported g ll ps = logOf g ll ps := by
  induction ps generalizing ll with
  | nil => rfl
  | cons p ps ih =>
    obtain ⟨b1, b2⟩ := p
    have h0 : (Machine.num b2 : Machine K R) = 0 ↔ b2 = 0 := ⟨fun h => by injection h, fun h => by rw [h]; rfl⟩
    have hp : ∀ b : K, (0 : Machine K R) < Machine.num b ↔ 0 < b := by
      intro b
      show ((0 : K) : WithBot K) < ((b : K) : WithBot K) ↔ _
      exact WithBot.coe_lt_coe
    unfold reported
    rw [ih]
    unfold logOf
    simp only [List.map_cons, List.foldl_cons, logStep, h0, hp]

theorem forall₂_get {α β : Type} {P : α → β → Prop} {l : List α} {m : List β} (h : List.Forall₂ P l m) {t : Nat} {a : α} (ht : l[t]? = some a) : ∃ b, m[t]? = some b ∧ P a b := by
  obtain ⟨h1, h2⟩ := List.getElem?_eq_some_iff.1 ht
  have h3 : t < m.length := by rw [← h.length_eq]; exact h1
  have := h.get h1 h3
  simp only [List.get_eq_getElem] at this
  rw [h2] at this
  exact ⟨m[t], List.getElem?_eq_getElem h3, this⟩

theorem reported_lowest {R : Rounding K} (g : Logs (Machine K R)) {ps : List (K × K)} (ll : Machine K R) {p : K × K} (h : ps.getLast? = some p) (h0 : p.2 = 0) : reported g ll ps = g.lowest := by
  induction ps generalizing ll with
  | nil => cases h
  | cons a ps ih =>
    obtain ⟨b1, b2⟩ := a
    unfold reported
    cases ps with
    | nil =>
      obtain rfl := Option.some.inj h
      have : b2 = 0 := h0
      rw [if_pos this]
      rfl
    | cons c ps => exact ih _ (by rw [← h, List.getLast?_cons_cons])

/-- An inference that gives results and a log likelihood, on the machine of a setting: it works, its results are the exact answers up to `N` roundings, and the log
likelihood is the one reported for some masses. -/
def Runs (infer : ∀ {F : Type} [Zero F] [One F] [Add F] [_root_.Sub F] [Mul F] [Div F] [LinearOrder F], Option (Logs F) → Interface → Model F → Res (List (List (List F)) × F × Model F))
    (ptr : Nat) {f : NetFile K} {hist : List (Op K)} {k : Nat} (n : Nat) (vars : List Nat) (answer : Nat → Nat → List K) (N : Nat) (S : Setting f hist k) (ps : List (K × K)) : Prop :=
  ∃ m0 s m results m', NetFile.parseModel ptr S.file = ok (some (m0, s)) ∧ m0.performAll S.calls = ok m ∧
    (∀ g, infer (some g) s m = ok (results, reported g 0 ps, m')) ∧ results.length = n ∧
    ∀ t i v : Nat, t < n → vars[i]? = some v →
      ∃ r, (results[t]?.bind (fun (row : List (List (Machine K S.R))) => row[i]?)) = some r ∧ List.Forall₂ (Machine.Near ((1 + S.e) ^ N)) r (answer t v)

/-- What such an inference should do on the machine of a setting, up to `N` roundings. -/
def Infers (infer : ∀ {F : Type} [Zero F] [One F] [Add F] [_root_.Sub F] [Mul F] [Div F] [LinearOrder F], Option (Logs F) → Interface → Model F → Res (List (List (List F)) × F × Model F))
    (ptr : Nat) {f : NetFile K} {hist : List (Op K)} {k : Nat} (seen : Nat → Nat → Int) (n : Nat) (vars : List Nat) (answer : Nat → Nat → List K) (N : Nat)
    (S : Setting f hist k) : Prop :=
  ∃ ps : List (K × K), Runs infer ptr n vars answer N S ps ∧ ps.length = n ∧
    (∀ t p, ps[t]? = some p → SliceMasses f seen ((1 + S.e) ^ N / (2 - (1 + S.e) ^ N)) t p) ∧
    (0 < n → f.unrolledTotal seen n (fun _ => True) = 0 → f.Links → ∀ g : Logs (Machine K S.R), reported g 0 ps = g.lowest)

/-- the end of both proofs -/
theorem infers_of {f : NetFile K} {seen : Nat → Nat → Int} {n : Nat} {q : K} (h1 : 1 ≤ q) (h2 : q < 2) {ps xs : List (K × K)} (hn : xs.length = n)
    (hx : ∀ t x, xs[t]? = some x → TrueMasses f seen t x) (ho : List.Forall₂ (OffPair q) ps xs) :
    ps.length = n ∧ (∀ t p, ps[t]? = some p → SliceMasses f seen (q / (2 - q)) t p) ∧
    (0 < n → f.unrolledTotal seen n (fun _ => True) = 0 → f.Links → ∀ {R : Rounding K} (g : Logs (Machine K R)), reported g 0 ps = g.lowest) := by
  have hl : ps.length = n := by rw [ho.length_eq, hn]
  have hs : ∀ t p, ps[t]? = some p → SliceMasses f seen (q / (2 - q)) t p := by
    intro t p ht
    obtain ⟨x, x1, x2⟩ := forall₂_get ho ht
    exact slice_masses h1 h2 x2 (hx t x x1)
  refine ⟨hl, hs, fun h0 htot hlk R g => ?_⟩
  have hlt : n - 1 < ps.length := by omega
  have hlast : ps.getLast? = some ps[n - 1] := by
    rw [List.getLast?_eq_getElem?, hl]
    exact List.getElem?_eq_getElem hlt
  refine reported_lowest g 0 hlast ((hs (n - 1) _ (List.getElem?_eq_getElem hlt)).2.2 ?_ hlk)
  rw [Nat.sub_add_cancel h0]
  exact htot

theorem filtering_near (ptr : Nat) {f : NetFile K} (hf : f.Valid) (htm : f.Temporal) {hist : List (Op K)} (hh : ∀ op ∈ hist, op.Valid f.net)
    (marked : Nat → Bool) {ts : TimeSeries} (hts : ts.WellFormed) (hnd : ts.observed.Nodup) (hob : ∀ v ∈ ts.observed, v ∈ f.vars)
    {vars : List Nat} (hvars : ∀ v ∈ vars, v ∈ f.vars) (k : Nat) :
    ∃ (N : Nat) (xs : List (K × K)), xs.length = ts.length ∧ (∀ t x, xs[t]? = some x → TrueMasses f (tsSees marked ts) t x) ∧
      ∀ S : Setting f hist k, SignedAccurate S.R S.e → (1 + S.e) ^ N < 2 → ∃ ps, List.Forall₂ (OffPair ((1 + S.e) ^ N)) ps xs ∧
        Runs (fun lg s m => forwardInference lg s marked ts vars m) ptr ts.length vars (fun t v => f.answer (dataSees marked ts.observed ts.data) (t + 1) t v) N S ps := by
  obtain ⟨m0, s, h1, h2, h3, h4, h5, h6⟩ := interface_spec ptr hf htm
  obtain ⟨m, g1, g2, g3⟩ := Model.performAll_spec hist h3 hh
  obtain ⟨results, ll, m', e1, e2, _, _, _, _, e3⟩ := forward_all hf htm ⟨h5, h6⟩ ⟨hts, hnd, hob⟩ marked (some ⟨id, 0⟩) hvars g3 (h4.keep g2.1.skel)
  obtain ⟨x, y, x1, y1, xy⟩ := all_settings k hf hh
  have i1 := NetFile.on_parseModel Tracked.hom_exact ptr x
  rw [x1, h1] at i1
  obtain ⟨o, t1, t2⟩ := on_eq_ok i1.symm
  cases o with
  | none => cases t2
  | some o =>
    obtain ⟨mt0, st⟩ := o
    obtain ⟨rfl, rfl⟩ := Prod.mk.inj (Option.some.inj t2)
    have i2 := on_performAll Tracked.hom_exact y mt0
    rw [y1] at i2
    rw [g1] at i2
    obtain ⟨mt, t4, rfl⟩ := on_eq_ok i2.symm
    obtain ⟨M, xs, rt, mt', l1, l2, l3, l4⟩ := forwardInference_near hf htm ⟨h5, h6⟩ ⟨hts, hnd, hob⟩ marked hvars g3 (h4.keep g2.1.skel)
    obtain ⟨l, l5⟩ := l3 ⟨id, 0⟩
    have hr : results = rt.map (List.map (List.map Tracked.exact)) := by
      have := l5.symm.trans e1
      exact (Prod.mk.inj (Res.ok.inj this)).1.symm
    obtain ⟨L, hL⟩ := counted_all rt
    refine ⟨max M L, xs, l1, l2, fun S hS hN => ?_⟩
    have q1 : (1 + S.e) ^ M ≤ (1 + S.e) ^ max M L := S.accuracy.pow_le (le_max_left _ _)
    obtain ⟨ps, p1, p2⟩ := l4 S hS (lt_of_le_of_lt q1 hN)
    have p1' : List.Forall₂ (OffPair ((1 + S.e) ^ max M L)) ps xs := offs_mono S.accurate.nonneg (le_max_left _ _) (true_nonneg l2) p1
    have f1 := NetFile.on_parseModel (Tracked.hom_machine S) ptr x
    rw [(xy S).1, t1] at f1
    have f2 := on_performAll (Tracked.hom_machine S) y mt0
    rw [(xy S).2, t4] at f2
    refine ⟨ps, p1', mt0.on S.machine, st, mt.on S.machine, rt.map (List.map (List.map S.machine)), mt'.on S.machine, f1, f2, fun g => ?_, ?_, fun t i v ht hv => ?_⟩
    · rw [reported_eq]
      exact p2 g
    · rw [List.length_map, ← e2, hr, List.length_map]
    · refine near_rows (n := max M L) (fun row h1 r h2 a h3 => (hL row h1 r h2 a h3).trans (le_max_right _ _)) S ?_
      rw [← hr]
      have hrt : results[t]? = some results[t] := List.getElem?_eq_getElem (by omega)
      rw [hrt]
      have := e3 t _ hrt
      show (results[t])[i]? = _
      rw [this, List.getElem?_map, hv]
      simp only [← reply_answer]
      rfl

theorem smoothing_near (ptr : Nat) {f : NetFile K} (hf : f.Valid) (htm : f.Temporal) {hist : List (Op K)} (hh : ∀ op ∈ hist, op.Valid f.net)
    (marked : Nat → Bool) {ts : TimeSeries} (hts : ts.WellFormed) (hnd : ts.observed.Nodup) (hob : ∀ v ∈ ts.observed, v ∈ f.vars)
    {vars : List Nat} (hvars : ∀ v ∈ vars, v ∈ f.vars) (k : Nat) :
    ∃ (N : Nat) (xs : List (K × K)), xs.length = ts.length ∧ (∀ t x, xs[t]? = some x → TrueMasses f (tsSees marked ts) t x) ∧
      ∀ S : Setting f hist k, SignedAccurate S.R S.e → (1 + S.e) ^ N < 2 → ∃ ps, List.Forall₂ (OffPair ((1 + S.e) ^ N)) ps xs ∧
        Runs (fun lg s m => forwardBackward lg s marked ts vars m) ptr ts.length vars (fun t v => f.answer (dataSees marked ts.observed ts.data) ts.length t v) N S ps := by
  obtain ⟨m0, s, h1, h2, h3, h4, h5, h6⟩ := interface_spec ptr hf htm
  obtain ⟨m, g1, g2, g3⟩ := Model.performAll_spec hist h3 hh
  obtain ⟨results, ll, m', e1, e2, _, _, _, _, _, e3⟩ := smooth_all hf htm ⟨h5, h6⟩ ⟨hts, hnd, hob⟩ marked (some ⟨id, 0⟩) hvars g3.carries (h4.keep g2.1.skel)
  obtain ⟨x, y, x1, y1, xy⟩ := all_settings k hf hh
  have i1 := NetFile.on_parseModel Tracked.hom_exact ptr x
  rw [x1, h1] at i1
  obtain ⟨o, t1, t2⟩ := on_eq_ok i1.symm
  cases o with
  | none => cases t2
  | some o =>
    obtain ⟨mt0, st⟩ := o
    obtain ⟨rfl, rfl⟩ := Prod.mk.inj (Option.some.inj t2)
    have i2 := on_performAll Tracked.hom_exact y mt0
    rw [y1] at i2
    rw [g1] at i2
    obtain ⟨mt, t4, rfl⟩ := on_eq_ok i2.symm
    obtain ⟨M, xs, rt, mt', l1, l2, l3, l4⟩ := forwardBackward_near hf htm ⟨h5, h6⟩ ⟨hts, hnd, hob⟩ marked hvars g3 (h4.keep g2.1.skel)
    obtain ⟨l, l5⟩ := l3 ⟨id, 0⟩
    have hr : results = rt.map (List.map (List.map Tracked.exact)) := by
      have := l5.symm.trans e1
      exact (Prod.mk.inj (Res.ok.inj this)).1.symm
    obtain ⟨L, hL⟩ := counted_all rt
    refine ⟨max M L, xs, l1, l2, fun S hS hN => ?_⟩
    have q1 : (1 + S.e) ^ M ≤ (1 + S.e) ^ max M L := S.accuracy.pow_le (le_max_left _ _)
    obtain ⟨ps, p1, p2⟩ := l4 S hS (lt_of_le_of_lt q1 hN)
    have p1' : List.Forall₂ (OffPair ((1 + S.e) ^ max M L)) ps xs := offs_mono S.accurate.nonneg (le_max_left _ _) (true_nonneg l2) p1
    have f1 := NetFile.on_parseModel (Tracked.hom_machine S) ptr x
    rw [(xy S).1, t1] at f1
    have f2 := on_performAll (Tracked.hom_machine S) y mt0
    rw [(xy S).2, t4] at f2
    refine ⟨ps, p1', mt0.on S.machine, st, mt.on S.machine, rt.map (List.map (List.map S.machine)), mt'.on S.machine, f1, f2, fun g => ?_, ?_, fun t i v ht hv => ?_⟩
    · rw [reported_eq]
      exact p2 g
    · rw [List.length_map, ← e2, hr, List.length_map]
    · refine near_rows (n := max M L) (fun row h1 r h2 a h3 => (hL row h1 r h2 a h3).trans (le_max_right _ _)) S ?_
      rw [← hr]
      have hrt : results[t]? = some results[t] := List.getElem?_eq_getElem (by omega)
      rw [hrt]
      have := e3 t _ hrt
      show (results[t])[i]? = _
      rw [this, List.getElem?_map, hv]
      simp only [← reply_answer]
      rfl

/-- **C107**, filtering when the log likelihood is asked for: there is a number of roundings that holds for all machines fine enough for it, such that the answers are the exact
ones, and the log likelihood is calculated from masses whose ratios are the exact probabilities of the data, up to that many roundings. -/
theorem C107_filtering (ptr : Nat) {f : NetFile K} (hf : f.Valid) (htm : f.Temporal) {hist : List (Op K)} (hh : ∀ op ∈ hist, op.Valid f.net)
    (marked : Nat → Bool) {ts : TimeSeries} (hts : ts.WellFormed) (hnd : ts.observed.Nodup) (hob : ∀ v ∈ ts.observed, v ∈ f.vars)
    {vars : List Nat} (hvars : ∀ v ∈ vars, v ∈ f.vars) (k : Nat) :
    ∃ N : Nat, ∀ S : Setting f hist k, SignedAccurate S.R S.e → (1 + S.e) ^ N < 2 →
      Infers (fun lg s m => forwardInference lg s marked ts vars m) ptr (dataSees marked ts.observed ts.data) ts.length vars
        (fun t v => f.answer (dataSees marked ts.observed ts.data) (t + 1) t v) N S := by
  obtain ⟨N, xs, h1, h2, h3⟩ := filtering_near ptr hf htm hh marked hts hnd hob hvars k
  refine ⟨N, fun S hS hN => ?_⟩
  obtain ⟨ps, g1, g2⟩ := h3 S hS hN
  obtain ⟨r1, r2, r3⟩ := infers_of (S.accuracy.one_le_e _) hN h1 h2 g1
  exact ⟨ps, g2, r1, r2, fun h0 htot hlk g => r3 h0 htot hlk g⟩

/-- **C107**, smoothing when the log likelihood is asked for. -/
theorem C107_smoothing (ptr : Nat) {f : NetFile K} (hf : f.Valid) (htm : f.Temporal) {hist : List (Op K)} (hh : ∀ op ∈ hist, op.Valid f.net)
    (marked : Nat → Bool) {ts : TimeSeries} (hts : ts.WellFormed) (hnd : ts.observed.Nodup) (hob : ∀ v ∈ ts.observed, v ∈ f.vars)
    {vars : List Nat} (hvars : ∀ v ∈ vars, v ∈ f.vars) (k : Nat) :
    ∃ N : Nat, ∀ S : Setting f hist k, SignedAccurate S.R S.e → (1 + S.e) ^ N < 2 →
      Infers (fun lg s m => forwardBackward lg s marked ts vars m) ptr (dataSees marked ts.observed ts.data) ts.length vars
        (fun t v => f.answer (dataSees marked ts.observed ts.data) ts.length t v) N S := by
  obtain ⟨N, xs, h1, h2, h3⟩ := smoothing_near ptr hf htm hh marked hts hnd hob hvars k
  refine ⟨N, fun S hS hN => ?_⟩
  obtain ⟨ps, g1, g2⟩ := h3 S hS hN
  obtain ⟨r1, r2, r3⟩ := infers_of (S.accuracy.one_le_e _) hN h1 h2 g1
  exact ⟨ps, g2, r1, r2, fun h0 htot hlk g => r3 h0 htot hlk g⟩

/-! ## the log likelihood in real numbers -/

/-- The logarithm of a machine is accurate up to a fraction `e`. -/
def LogsAccurate {R : Rounding ℝ} (g : Logs (Machine ℝ R)) (e : ℝ) : Prop := ∀ b, 0 < b → ∃ l, g.log (.num b) = .num l ∧ |l - Real.log b| ≤ e * |Real.log b|

theorem log_off {b x u : ℝ} (hx : 0 < x) (hu : u ≤ 1 / 2) (h : |b - x| ≤ u * x) : 0 < b ∧ |Real.log b - Real.log x| ≤ 2 * u := by
  obtain ⟨h1, h2⟩ := abs_le.1 h
  have hu0 : 0 ≤ u := by
    by_contra hneg
    have := mul_neg_of_neg_of_pos (not_le.1 hneg) hx
    linarith [abs_nonneg (b - x)]
  have hb : x / 2 ≤ b := by nlinarith
  have hb0 : 0 < b := by linarith
  refine ⟨hb0, abs_le.2 ⟨?_, ?_⟩⟩
  · have h3 := Real.log_le_sub_one_of_pos (div_pos hx hb0)
    rw [Real.log_div hx.ne' hb0.ne'] at h3
    have h4 : x / b - 1 ≤ 2 * u := by
      rw [div_sub_one hb0.ne', div_le_iff₀ hb0]
      nlinarith
    linarith
  · have h3 := Real.log_le_sub_one_of_pos (div_pos hb0 hx)
    rw [Real.log_div hb0.ne' hx.ne'] at h3
    have h4 : b / x - 1 ≤ u := by
      rw [div_sub_one hx.ne', div_le_iff₀ hx]
      linarith
    linarith

/-- one logarithm -/
theorem log_near (N : Nat) {x : ℝ} (hx : 0 < x) : ∃ D e1, 0 ≤ D ∧ 0 < e1 ∧ e1 ≤ 1 ∧ ∀ (R : Rounding ℝ) (e : ℝ) (g : Logs (Machine ℝ R)), 0 ≤ e → e ≤ e1 → LogsAccurate g e →
    ∀ b, Off ((1 + e) ^ N) b x → 0 < b ∧ ∃ l, g.log (.num b) = .num l ∧ |l - Real.log x| ≤ D * e := by
  have hC : (0 : ℝ) ≤ 2 ^ N - 1 := by
    have : (1 : ℝ) ≤ 2 ^ N := one_le_pow₀ (by norm_num)
    linarith
  obtain ⟨C, hCe⟩ : ∃ C : ℝ, C = 2 ^ N - 1 := ⟨_, rfl⟩
  rw [← hCe] at hC
  refine ⟨2 * C + (|Real.log x| + 1), 1 / (2 * C + 1), by positivity, by positivity, by rw [div_le_one (by positivity)]; linarith, fun R e g he he1 hg b hb => ?_⟩
  have h1 : e * (2 * C + 1) ≤ 1 := (le_div_iff₀ (by positivity)).1 he1
  have h2 : e ≤ 1 := by nlinarith
  have hp : (1 + e) ^ N ≤ 1 + C * e := by rw [hCe]; exact pow_near N he h2
  have hu : C * e ≤ 1 / 2 := by nlinarith
  obtain ⟨b1, b2⟩ := log_off hx hu ((show |b - x| ≤ ((1 + e) ^ N - 1) * x from hb).trans (mul_le_mul_of_nonneg_right (by linarith) hx.le))
  obtain ⟨l, l1, l2⟩ := hg b b1
  refine ⟨b1, l, l1, ?_⟩
  have h3 : |Real.log b| ≤ |Real.log x| + 1 := by
    have := abs_sub_abs_le_abs_sub (Real.log b) (Real.log x)
    linarith
  have h4 : |l - Real.log x| ≤ |l - Real.log b| + |Real.log b - Real.log x| := by
    have := abs_add_le (l - Real.log b) (Real.log b - Real.log x)
    rwa [sub_add_sub_cancel] at this
  have h5 : e * |Real.log b| ≤ e * (|Real.log x| + 1) := mul_le_mul_of_nonneg_left h3 he
  linarith

theorem machine_sub {R : Rounding ℝ} (a b : ℝ) : (Machine.num a - Machine.num b : Machine ℝ R) = .num (R.fl (a - b)) := rfl

theorem machine_add {R : Rounding ℝ} (a b : ℝ) : (Machine.num a + Machine.num b : Machine ℝ R) = .num (R.fl (a + b)) := rfl

/-- an operation with rounding -/
theorem fl_near {R : Rounding ℝ} {e : ℝ} (hR : SignedAccurate R e) (he : 0 ≤ e) (he1 : e ≤ 1) {z x D : ℝ} (h : |z - x| ≤ D * e) : |R.fl z - x| ≤ (2 * D + |x|) * e := by
  have h1 := hR z
  have h2 : |R.fl z - x| ≤ |R.fl z - z| + |z - x| := by
    have := abs_add_le (R.fl z - z) (z - x)
    rwa [sub_add_sub_cancel] at this
  have h3 : |z| ≤ |x| + D * e := by
    have := abs_sub_abs_le_abs_sub z x
    linarith
  have hD : 0 ≤ D * e := (abs_nonneg _).trans h
  have h4 : e * |z| ≤ e * (|x| + D * e) := mul_le_mul_of_nonneg_left h3 he
  have h5 : e * (D * e) ≤ D * e := by nlinarith
  nlinarith

/-- the log likelihood reported for masses that are nearly right -/
theorem reported_near (N : Nat) (xs : List (ℝ × ℝ)) (hx : ∀ x ∈ xs, 0 < x.1 ∧ 0 < x.2) (L E0 : ℝ) : ∃ E e1, 0 < e1 ∧
    ∀ (R : Rounding ℝ) (e : ℝ) (g : Logs (Machine ℝ R)), SignedAccurate R e → 0 ≤ e → e ≤ e1 → LogsAccurate g e → ∀ (l : ℝ) (ps : List (ℝ × ℝ)), |l - L| ≤ E0 * e →
      List.Forall₂ (OffPair ((1 + e) ^ N)) ps xs → ∃ ll, reported g (.num l) ps = .num ll ∧ |ll - (L + (xs.map (fun x => Real.log (x.2 / x.1))).sum)| ≤ E * e := by
  induction xs generalizing L E0 with
  | nil =>
    refine ⟨E0, 1, one_pos, fun R e g _ _ _ _ l ps hl hp => ⟨l, ?_, by simpa using hl⟩⟩
    cases hp
    rfl
  | cons x xs ih =>
    obtain ⟨x1, x2⟩ := hx x List.mem_cons_self
    obtain ⟨D1, e1, hD1, he1, _, h1⟩ := log_near N x1
    obtain ⟨D2, e2, hD2, he2, he2', h2⟩ := log_near N x2
    have hlog : Real.log (x.2 / x.1) = Real.log x.2 - Real.log x.1 := Real.log_div x2.ne' x1.ne'
    obtain ⟨D, hD⟩ : ∃ D, D = 2 * (D1 + D2) + |Real.log (x.2 / x.1)| := ⟨_, rfl⟩
    obtain ⟨E, e3, he3, h3⟩ := ih (fun y hy => hx y (List.mem_cons_of_mem _ hy)) (L + Real.log (x.2 / x.1)) (2 * (E0 + D) + |L + Real.log (x.2 / x.1)|)
    refine ⟨E, min e1 (min e2 e3), lt_min he1 (lt_min he2 he3), fun R e g hR he hle hg l ps hl hp => ?_⟩
    have le1 : e ≤ e1 := hle.trans (min_le_left _ _)
    have le2 : e ≤ e2 := hle.trans ((min_le_right _ _).trans (min_le_left _ _))
    have le3 : e ≤ e3 := hle.trans ((min_le_right _ _).trans (min_le_right _ _))
    have hone : e ≤ 1 := le2.trans he2'
    cases hp with
    | @cons p _ ps _ o ho =>
      obtain ⟨b1, b2⟩ := p
      obtain ⟨c1, l1, f1, g1⟩ := h1 R e g he le1 hg b1 o.1
      obtain ⟨c2, l2, f2, g2⟩ := h2 R e g he le2 hg b2 o.2
      have c2' : 0 < b2 := c2
      have hz : |l2 - l1 - Real.log (x.2 / x.1)| ≤ (D1 + D2) * e := by
        rw [hlog]
        have := abs_sub (l2 - Real.log x.2) (l1 - Real.log x.1)
        have h4 : l2 - l1 - (Real.log x.2 - Real.log x.1) = l2 - Real.log x.2 - (l1 - Real.log x.1) := by ring
        rw [h4]
        linarith
      have hz1 := fl_near hR he hone hz
      rw [← hD] at hz1
      have hw : |l + R.fl (l2 - l1) - (L + Real.log (x.2 / x.1))| ≤ (E0 + D) * e := by
        have := abs_add_le (l - L) (R.fl (l2 - l1) - Real.log (x.2 / x.1))
        have h4 : l + R.fl (l2 - l1) - (L + Real.log (x.2 / x.1)) = l - L + (R.fl (l2 - l1) - Real.log (x.2 / x.1)) := by ring
        rw [h4]
        linarith
      have hw1 := fl_near hR he hone hw
      obtain ⟨ll, k1, k2⟩ := h3 R e g hR he le3 hg _ ps hw1 ho
      refine ⟨ll, ?_, ?_⟩
      · unfold reported
        rw [if_neg c2'.ne', if_pos ⟨c1, c2⟩, f1, f2, machine_sub, machine_add]
        exact k1
      · rw [List.map_cons, List.sum_cons, ← add_assoc]
        exact k2

theorem sum_slices {α : Type} (xs : List α) (h : α → ℝ) (k : Nat → ℝ) (hk : ∀ (t : Nat) (x : α), xs[t]? = some x → h x = k t) : (xs.map h).sum = ∑ t ∈ Finset.range xs.length, k t := by
  induction xs using List.reverseRecOn with
  | nil => simp
  | append_singleton xs x ih =>
    rw [List.map_append, List.sum_append, List.length_append, List.length_singleton, Finset.sum_range_succ,
      ih (fun t y hy => hk t y (by rw [List.getElem?_append_left (List.getElem?_eq_some_iff.1 hy).1]; exact hy)), ← hk xs.length x (by simp)]
    simp

/-- the end of both proofs -/
theorem likelihood_near {f : NetFile ℝ} (hf : f.Valid) {seen : Nat → Nat → Int} {n N : Nat} {xs : List (ℝ × ℝ)} (hn : xs.length = n) (hx : ∀ t x, xs[t]? = some x → TrueMasses f seen t x)
    (hpos : f.unrolledTotal seen n (fun _ => True) ≠ 0) : ∃ E e1, 0 < e1 ∧
    ∀ (R : Rounding ℝ) (e : ℝ), SignedAccurate R e → 0 ≤ e → e ≤ e1 → (1 + e) ^ N < 2 ∧ ∀ g : Logs (Machine ℝ R), LogsAccurate g e →
      ∀ ps : List (ℝ × ℝ), List.Forall₂ (OffPair ((1 + e) ^ N)) ps xs → ∃ ll, reported g 0 ps = .num ll ∧ |ll - ∑ t ∈ Finset.range n, Real.log (f.evidenceProb seen t)| ≤ E * e := by
  have htot : ∀ t x, xs[t]? = some x → 0 < x.1 ∧ 0 < x.2 ∧ x.2 / x.1 = f.evidenceProb seen t := by
    intro t x ht
    refine (hx t x ht).2.2.1 (total_prefix_le hf seen (n := n) ?_ hpos)
    have := (List.getElem?_eq_some_iff.1 ht).1
    omega
  obtain ⟨E, e1, h1, h2⟩ := reported_near N xs (fun x hm => by
    obtain ⟨t, ht⟩ := List.getElem?_of_mem hm
    exact ⟨(htot t x ht).1, (htot t x ht).2.1⟩) 0 0
  have hC : (0 : ℝ) ≤ 2 ^ N - 1 := by
    have : (1 : ℝ) ≤ 2 ^ N := one_le_pow₀ (by norm_num)
    linarith
  have hD2 : (0 : ℝ) < 2 * (2 ^ N - 1) + 1 := by positivity
  refine ⟨E, min e1 (min 1 (1 / (2 * (2 ^ N - 1) + 1))), lt_min h1 (lt_min one_pos (div_pos one_pos hD2)), fun R e hR he hle => ?_⟩
  have k1 : e * (2 * (2 ^ N - 1) + 1) ≤ 1 := (le_div_iff₀ hD2).1 (hle.trans ((min_le_right _ _).trans (min_le_right _ _)))
  have k2 := pow_near N he (hle.trans ((min_le_right _ _).trans (min_le_left _ _)))
  refine ⟨by nlinarith, fun g hg ps hp => ?_⟩
  obtain ⟨ll, g1, g2⟩ := h2 R e g hR he (hle.trans (min_le_left _ _)) hg 0 ps (by simp) hp
  refine ⟨ll, g1, ?_⟩
  rw [zero_add, sum_slices xs _ (fun t => Real.log (f.evidenceProb seen t)) (fun t x ht => by rw [(htot t x ht).2.2]), hn] at g2
  exact g2

/-- **C107**, the log likelihood from filtering, if the data are possible: on machines fine enough it differs from the logarithm of the probability of the data (the sum of the
logarithms of the probabilities of the data of each slice given those before) by no more than a constant times the error of a rounding. -/
theorem C107_filtering_likelihood (ptr : Nat) {f : NetFile ℝ} (hf : f.Valid) (htm : f.Temporal) {hist : List (Op ℝ)} (hh : ∀ op ∈ hist, op.Valid f.net)
    (marked : Nat → Bool) {ts : TimeSeries} (hts : ts.WellFormed) (hnd : ts.observed.Nodup) (hob : ∀ v ∈ ts.observed, v ∈ f.vars)
    {vars : List Nat} (hvars : ∀ v ∈ vars, v ∈ f.vars) (hpos : f.unrolledTotal (dataSees marked ts.observed ts.data) ts.length (fun _ => True) ≠ 0) (k : Nat) :
    ∃ E e1, 0 < e1 ∧ ∀ S : Setting f hist k, SignedAccurate S.R S.e → S.e ≤ e1 →
      ∃ m0 s m results m', NetFile.parseModel ptr S.file = ok (some (m0, s)) ∧ m0.performAll S.calls = ok m ∧
        ∀ g, LogsAccurate g S.e → ∃ ll, forwardInference (some g) s marked ts vars m = ok (results, .num ll, m') ∧
          |ll - ∑ t ∈ Finset.range ts.length, Real.log (f.evidenceProb (dataSees marked ts.observed ts.data) t)| ≤ E * S.e := by
  obtain ⟨N, xs, h1, h2, h3⟩ := filtering_near ptr hf htm hh marked hts hnd hob hvars k
  obtain ⟨E, e1, he, h4⟩ := likelihood_near (N := N) hf h1 h2 hpos
  refine ⟨E, e1, he, fun S hS hle => ?_⟩
  obtain ⟨q1, q2⟩ := h4 S.R S.e hS S.accurate.nonneg hle
  obtain ⟨ps, g1, m0, s, m, results, m', g2, g3, g4, _⟩ := h3 S hS q1
  refine ⟨m0, s, m, results, m', g2, g3, fun g hg => ?_⟩
  obtain ⟨ll, l1, l2⟩ := q2 g hg ps g1
  exact ⟨ll, by rw [← l1]; exact g4 g, l2⟩

/-- **C107**, the log likelihood from smoothing. -/
theorem C107_smoothing_likelihood (ptr : Nat) {f : NetFile ℝ} (hf : f.Valid) (htm : f.Temporal) {hist : List (Op ℝ)} (hh : ∀ op ∈ hist, op.Valid f.net)
    (marked : Nat → Bool) {ts : TimeSeries} (hts : ts.WellFormed) (hnd : ts.observed.Nodup) (hob : ∀ v ∈ ts.observed, v ∈ f.vars)
    {vars : List Nat} (hvars : ∀ v ∈ vars, v ∈ f.vars) (hpos : f.unrolledTotal (dataSees marked ts.observed ts.data) ts.length (fun _ => True) ≠ 0) (k : Nat) :
    ∃ E e1, 0 < e1 ∧ ∀ S : Setting f hist k, SignedAccurate S.R S.e → S.e ≤ e1 →
      ∃ m0 s m results m', NetFile.parseModel ptr S.file = ok (some (m0, s)) ∧ m0.performAll S.calls = ok m ∧
        ∀ g, LogsAccurate g S.e → ∃ ll, forwardBackward (some g) s marked ts vars m = ok (results, .num ll, m') ∧
          |ll - ∑ t ∈ Finset.range ts.length, Real.log (f.evidenceProb (dataSees marked ts.observed ts.data) t)| ≤ E * S.e := by
  obtain ⟨N, xs, h1, h2, h3⟩ := smoothing_near ptr hf htm hh marked hts hnd hob hvars k
  obtain ⟨E, e1, he, h4⟩ := likelihood_near (N := N) hf h1 h2 hpos
  refine ⟨E, e1, he, fun S hS hle => ?_⟩
  obtain ⟨q1, q2⟩ := h4 S.R S.e hS S.accurate.nonneg hle
  obtain ⟨ps, g1, m0, s, m, results, m', g2, g3, g4, _⟩ := h3 S hS q1
  refine ⟨m0, s, m, results, m', g2, g3, fun g hg => ?_⟩
  obtain ⟨ll, l1, l2⟩ := q2 g hg ps g1
  exact ⟨ll, by rw [← l1]; exact g4 g, l2⟩

/-! ## machines that round negative numbers like positive ones -/

/-- Negative numbers are rounded like positive ones. -/
def mirrored (R : Rounding K) : Rounding K where
  fl := fun x => if x < 0 then -R.fl (-x) else R.fl x
  mono := by
    intro a b h
    have pos : ∀ x, 0 ≤ x → 0 ≤ R.fl x := fun x hx => by rw [← R.zero]; exact R.mono _ _ hx
    show (if a < 0 then -R.fl (-a) else R.fl a) ≤ if b < 0 then -R.fl (-b) else R.fl b
    split_ifs with h1 h2 h2
    · exact neg_le_neg (R.mono _ _ (neg_le_neg h))
    · have := pos (-a) (by linarith)
      have := pos b (not_lt.1 h2)
      linarith
    · exact absurd (lt_of_le_of_lt h h2) h1
    · exact R.mono _ _ h
  zero := by simp [R.zero]
  one := by rw [if_neg (not_lt.2 zero_le_one)]; exact R.one
  idem := by
    intro x
    have pos : ∀ x, 0 ≤ x → 0 ≤ R.fl x := fun x hx => by rw [← R.zero]; exact R.mono _ _ hx
    show (if (if x < 0 then -R.fl (-x) else R.fl x) < 0 then -R.fl (-(if x < 0 then -R.fl (-x) else R.fl x)) else R.fl (if x < 0 then -R.fl (-x) else R.fl x)) =
      if x < 0 then -R.fl (-x) else R.fl x
    by_cases h1 : x < 0
    · simp only [if_pos h1]
      by_cases h2 : -R.fl (-x) < 0
      · rw [if_pos h2, neg_neg, R.idem]
      · have h3 : R.fl (-x) = 0 := le_antisymm (by linarith) (pos _ (by linarith))
        rw [if_neg h2, h3, neg_zero, R.zero]
    · simp only [if_neg h1]
      rw [if_neg (not_lt.2 (pos _ (not_lt.1 h1))), R.idem]

theorem mirrored_accurate {R : Rounding K} {e : K} (h : Accurate R e) : Accurate (mirrored R) e where
  nonneg := h.nonneg
  near := by
    intro x hx
    show Within (1 + e) (if x < 0 then -R.fl (-x) else R.fl x) x
    rw [if_neg (not_lt.2 hx)]
    exact h.near x hx

theorem mirrored_signed {R : Rounding K} {e : K} (h : Accurate R e) : SignedAccurate (mirrored R) e := by
  have key : ∀ z, 0 ≤ z → |R.fl z - z| ≤ e * z := by
    intro z hz
    obtain ⟨h1, h2⟩ := h.near z hz
    have he := h.nonneg
    rw [abs_le]
    constructor
    · by_cases hc : R.fl z ≤ z
      · nlinarith
      · nlinarith
    · nlinarith
  intro z
  show |(if z < 0 then -R.fl (-z) else R.fl z) - z| ≤ e * |z|
  split_ifs with hz
  · rw [abs_of_neg hz, show -R.fl (-z) - z = -(R.fl (-z) - -z) by ring, abs_neg]
    exact key _ (by linarith)
  · rw [abs_of_nonneg (not_lt.1 hz)]
    exact key _ (not_lt.1 hz)

/-- a machine with `p` digits after the first -/
def signedDigits (p : Nat) : Setting twoNodes (changeOfMind ++ .propagate :: []) 1 :=
  onceRounded (mirrored (cutting ℚ p)) (1 / 2 ^ p) (mirrored_accurate (cutting_accurate p)) twoNodes_valid changeOfMind_propagate

/-- The probability mass after contradictory evidence, on all machines with `p` digits. -/
example : ∃ N : Nat, ∀ p : Nat, ∃ m b m', NetFile.runFile 8 (signedDigits p).file (signedDigits p).calls = ok m ∧ m.probMass = ok (.num b, m') ∧
    UpTo ((1 + 1 / 2 ^ p) ^ N) b (totalWeight twoNodes.net ((World.fresh twoNodes.net).after twoNodes.net changeOfMind)) := by
  obtain ⟨N, h⟩ := C107_mass 8 twoNodes_valid changeOfMind_valid (asks := []) (by simp) (by simp) 1
  exact ⟨N, fun p => h (signedDigits p) (mirrored_signed (cutting_accurate p))⟩

/-- Filtering and smoothing with sightings: there are enough digits for any number of roundings. -/
example : ∃ (N : Nat) (S : Setting hmm [] 1), 0 < S.e ∧
    Infers (fun lg s m => forwardInference lg s (fun _ => true) sightings [1, 2] m) 8 (dataSees (fun _ => true) sightings.observed sightings.data) 3 [1, 2]
      (fun t v => hmm.answer (dataSees (fun _ => true) sightings.observed sightings.data) (t + 1) t v) N S := by
  obtain ⟨N, h⟩ := C107_filtering 8 hmm_valid hmm_temporal (hist := []) (by simp) (fun _ => true) sightings_wellFormed (by decide) (by decide) (vars := [1, 2]) (by decide) 1
  refine ⟨N, onceRounded (mirrored (cutting ℚ (N + 1))) (1 / 2 ^ (N + 1)) (mirrored_accurate (cutting_accurate (N + 1))) hmm_valid (by simp), ?_, h _ (mirrored_signed (cutting_accurate (N + 1))) ?_⟩
  · show (0 : ℚ) < 1 / 2 ^ (N + 1)
    positivity
  · show (1 + 1 / 2 ^ (N + 1) : ℚ) ^ N < 2
    have h1 : (1 / 2 ^ (N + 1) : ℚ) ≤ 1 := by
      rw [div_le_one (by positivity)]
      exact one_le_pow₀ (by norm_num)
    refine lt_of_le_of_lt (pow_near N (by positivity) h1) ?_
    have h2 : ((2 : ℚ) ^ N - 1) * (1 / 2 ^ (N + 1)) < 1 := by
      rw [mul_one_div, div_lt_one (by positivity), pow_succ]
      have : (0 : ℚ) < 2 ^ N := by positivity
      linarith
    linarith

theorem fairCoin_temporal : (coin.relearn (fun _ _ => 1)).Temporal where
  used := by intro v hv; simp [NetFile.relearn, coin]
  states := by intro v hv; simp [NetFile.relearn, coin]
  distinct := by intro v hv; simp [NetFile.relearn, coin]

/-- One toss of a fair coin: the log likelihood is that of one half. -/
example : ∃ E e1 : ℝ, 0 < e1 ∧ ∀ S : Setting (coin.relearn (fun _ _ => 1)) [] 1, SignedAccurate S.R S.e → S.e ≤ e1 →
    ∃ m0 s m results m', NetFile.parseModel 8 S.file = ok (some (m0, s)) ∧ m0.performAll S.calls = ok m ∧
      ∀ g, LogsAccurate g S.e → ∃ ll, forwardInference (some g) s (fun _ => true) heads [1] m = ok (results, .num ll, m') ∧ |ll - Real.log (1 / 2)| ≤ E * S.e := by
  have hv : (coin.relearn (fun _ _ => 1)).Valid := relearn_valid coin_valid (fun _ _ => zero_le_one)
  obtain ⟨c1, c2⟩ := coin_score (c := fun _ _ => 1) one_pos one_pos
  have hpos : (coin.relearn (fun _ _ => 1)).unrolledTotal (dataSees (fun _ => true) heads.observed heads.data) heads.length (fun _ => True) ≠ 0 := by
    have := c1 (1, dataSees (fun _ => true) [1] [[0]]) (by simp)
    exact this
  obtain ⟨E, e1, h1, h2⟩ := C107_filtering_likelihood 8 hv fairCoin_temporal (hist := []) (by simp) (fun _ => true) heads_wellFormed (by decide) (by simp [heads, coin, NetFile.relearn])
    (vars := [1]) (by simp [coin, NetFile.relearn]) hpos 1
  refine ⟨E, e1, h1, fun S hS hle => ?_⟩
  obtain ⟨m0, s, m, results, m', g1, g2, g3⟩ := h2 S hS hle
  refine ⟨m0, s, m, results, m', g1, g2, fun g hg => ?_⟩
  obtain ⟨ll, l1, l2⟩ := g3 g hg
  refine ⟨ll, l1, ?_⟩
  have : ∑ t ∈ Finset.range heads.length, Real.log ((coin.relearn (fun _ _ => 1)).evidenceProb (dataSees (fun _ => true) heads.observed heads.data) t) = Real.log (1 / 2) := by
    have h3 : (coin.relearn (fun _ _ => 1)).score Real.log [(1, dataSees (fun _ => true) [1] [[0]])] = _ := c2
    simp only [NetFile.score, List.map_cons, List.map_nil, List.sum_cons, List.sum_nil, add_zero] at h3
    norm_num at h3 ⊢
    rw [show heads.length = 1 from rfl, Finset.sum_range_one]
    exact h3
  rw [← this]
  exact l2

/-- logarithms with rounding -/
noncomputable def roundedLogs (R : Rounding ℝ) : Machine ℝ R → Machine ℝ R
  | .num b => .num (R.fl (Real.log b))
  | .nan => .nan

/-- Such machines, with such logarithms, exist for real numbers, too. -/
example (e1 : ℝ) (h : 0 < e1) : ∃ S : Setting (coin.relearn (fun _ _ => 1)) [] 1, 0 < S.e ∧ S.e ≤ e1 ∧ SignedAccurate S.R S.e ∧ ∃ g : Logs (Machine ℝ S.R), LogsAccurate g S.e := by
  obtain ⟨p, hp⟩ := exists_pow_lt_of_lt_one h (show (1 / 2 : ℝ) < 1 by norm_num)
  have hs : SignedAccurate (mirrored (cutting ℝ p)) (1 / 2 ^ p) := mirrored_signed (cutting_accurate p)
  refine ⟨onceRounded (mirrored (cutting ℝ p)) (1 / 2 ^ p) (mirrored_accurate (cutting_accurate p)) (relearn_valid coin_valid (fun _ _ => zero_le_one)) (by simp), ?_, ?_, hs,
    ⟨roundedLogs (mirrored (cutting ℝ p)), .num (-1)⟩, fun b _ => ⟨_, rfl, hs _⟩⟩
  · show (0 : ℝ) < 1 / 2 ^ p
    positivity
  · show (1 / 2 ^ p : ℝ) ≤ e1
    rw [← one_div_pow]
    exact hp.le

end Nip.Props
