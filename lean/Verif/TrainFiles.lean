import Verif.Props.ReadAgain
import Verif.Props.Whole
import Verif.TrainLemmas

/-!
# Lemmas about training from files
-/

namespace Nip

open Res Spec Model Props

set_option linter.unusedSectionVars false
set_option synthInstance.maxSize 1000

variable {K : Type} [Field K] [LinearOrder K] [IsStrictOrderedRing K]

/-! ### what the lines tell -/

theorem row_told {num : Numerals K} {d : NetText} {base : Nat} {f : NetFile K} (hd : d.Sensible num.value num.int) (hV : f.Valid) (hD : d.Describes num.value base f)
    {x : VarTexts} (hx : TellsNodes d base x) {header : List (List Char)} (hh : d.OneColumn header) {line : List Char} (hlong : d.LongLines header [line])
    {n : NodeText} (hn : n ∈ d.nodes) :
    rowSees (fun _ => true) (columnVars x f.vars header) ((cols x f.vars header).map (fieldValue (namesOf x) (fields fieldSeparator line))) (base + d.place n.name) =
      n.told header line := by
  unfold NodeText.told
  by_cases hc : ∃ c : Nat, header[c]? = some n.name
  · obtain ⟨c, hc⟩ := hc
    have hl := hlong line (by simp) n hn c hc
    have h1 := row_field hd hV hD hx hh line n hn c hc
    refine h1.trans ?_
    have hz : (header.zip (fields ',' line))[c]? = some (n.name, (fields ',' line)[c]) := by
      rw [List.getElem?_zip_eq_some]
      exact ⟨hc, List.getElem?_eq_getElem hl⟩
    have hf : (header.zip (fields ',' line)).find? (fun q => q.1 == n.name) = some (n.name, (fields ',' line)[c]) := by
      cases hq : (header.zip (fields ',' line)).find? (fun q => q.1 == n.name) with
      | none => exact absurd (List.find?_eq_none.1 hq _ (List.mem_of_getElem? hz)) (by simp)
      | some q =>
        obtain ⟨k, hk⟩ := List.getElem?_of_mem (List.mem_of_find?_eq_some hq)
        have h2 : q.1 = n.name := by simpa using List.find?_some hq
        rw [List.getElem?_zip_eq_some] at hk
        have : k = c := hh n hn k c (by rw [hk.1, h2]) hc
        subst this
        rw [List.getElem?_eq_getElem hl] at hk
        rw [Option.some.injEq]
        exact Prod.ext h2 (Option.some.inj hk.2).symm
    rw [hf]
    unfold fieldValue
    simp only
    rw [List.getElem?_eq_getElem hl, (hx n hn).2.1]
    rfl
  · refine (row_none hd hV hD hx line hn hc).trans ?_
    have hf : (header.zip (fields ',' line)).find? (fun q => q.1 == n.name) = none := by
      rw [List.find?_eq_none]
      intro q hq h
      obtain ⟨k, hk⟩ := List.getElem?_of_mem hq
      rw [List.getElem?_zip_eq_some] at hk
      exact hc ⟨k, by rw [hk.1, show q.1 = n.name by simpa using h]⟩
    rw [hf]

theorem groups_told {num : Numerals K} {d : NetText} {net data : List Char} (h : UsableFiles num d net data) {base : Nat} {f : NetFile K} (hV : f.Valid)
    (hD : d.Describes num.value base f) {x : VarTexts} (hx : TellsNodes d base x) (hc : (cols x f.vars (columnNames data)).length ≠ 0) :
    d.Tells base (columnNames data) (groupsOf data) (evidenceOf (fun _ => true) ((groupsOf data).map (readGroup x f.vars data))) := by
  unfold NetText.Tells evidenceOf
  rw [List.map_map, List.forall₂_map_right_iff, List.forall₂_same]
  intro lines hl
  refine ⟨rfl, fun t line ht n hn => ?_⟩
  rw [← row_told h.sensible hV hD hx h.columns (line := line) (fun l hl' n hn c hc => by
    rw [List.mem_singleton] at hl'
    subst hl'
    exact h.long lines hl l (List.mem_of_getElem? ht) n hn c hc) hn]
  show dataSees (fun _ => true) (readGroup x f.vars data lines).observed (readGroup x f.vars data lines).data t _ = _
  unfold dataSees readGroup readTs
  simp only
  rw [if_neg hc, List.getD_eq_getElem?_getD, List.getElem?_map, ht]
  rfl

/-- some column of a node -/
theorem cols_some {num : Numerals K} {d : NetText} {base : Nat} {f : NetFile K} (hd : d.Sensible num.value num.int) (hV : f.Valid) (hD : d.Describes num.value base f)
    {x : VarTexts} (hx : TellsNodes d base x) {header : List (List Char)} : (cols x f.vars header).length ≠ 0 ↔ ∃ n ∈ d.nodes, n.name ∈ header := by
  have hm := (texts_model hd hV hD hx).1
  rw [Ne, List.length_eq_zero_iff, ← Ne]
  constructor
  · intro h
    obtain ⟨⟨v, c⟩, hin⟩ := List.exists_mem_of_ne_nil _ h
    obtain ⟨w, hw, hv⟩ := (mem_cols x f.vars header v c).1 hin
    obtain ⟨hv', rfl⟩ := (search_symbol hm _ _).1 hv
    obtain ⟨n, hn, rfl⟩ := node_of hd hD hv'
    refine ⟨n, hn, ?_⟩
    rw [← (hx n hn).1]
    exact List.mem_of_getElem? hw
  · rintro ⟨n, hn, hin⟩
    obtain ⟨c, hc⟩ := List.getElem?_of_mem hin
    exact List.ne_nil_of_mem (a := (base + d.place n.name, c)) ((mem_cols x f.vars header _ c).2 ⟨_, hc, (search_symbol hm _ _).2 ⟨of_node hD hn, (hx n hn).1.symm⟩⟩)

/-! ### the learning curve -/

theorem printCurve_eq (shown : K → List Char) (rint : K → K) (threshold : K) (curve : List K) :
    printCurve shown rint threshold curve = curveText shown (curve.map (fun a => rint (a / threshold) * threshold)) := by
  have key : ∀ (l : List K) (k : Nat) (acc : List Char),
      (l.foldl (fun (st : Nat × List Char) a => (st.1 + 1, st.2 ++ printNat st.1 ++ [','] ++ shown (rint (a / threshold) * threshold) ++ ['\n'])) (k + 1, acc)).2 =
        acc ++ ((l.map (fun a => rint (a / threshold) * threshold)).mapIdx (fun i y => line [Nat.toDigits 10 (k + i + 1), shown y])).flatten := by
    intro l
    induction l with
    | nil => simp
    | cons a l ih =>
      intro k acc
      rw [List.foldl_cons, ih (k + 1)]
      rw [List.map_cons, List.mapIdx_cons, List.flatten_cons]
      have : (fun (i : Nat) (y : K) => line [Nat.toDigits 10 (k + (i + 1) + 1), shown y]) = fun i y => line [Nat.toDigits 10 (k + 1 + i + 1), shown y] := by
        funext i y
        rw [show k + (i + 1) + 1 = k + 1 + i + 1 by omega]
      rw [this]
      simp [line, printNat, List.intercalate]
  have h := key curve 0 []
  simp only [Nat.zero_add, List.nil_append] at h
  exact h

theorem curve_near {rint : K → K} (hr : RoundsToInt rint) {threshold : K} (ht : 0 < threshold) (curve : List K) :
    List.Forall₂ (Nearest threshold) curve (curve.map (fun a => rint (a / threshold) * threshold)) := by
  rw [List.forall₂_map_right_iff, List.forall₂_same]
  intro a _
  obtain ⟨⟨z, hz⟩, h⟩ := hr (a / threshold)
  refine ⟨⟨z, by rw [hz]⟩, ?_⟩
  have : rint (a / threshold) * threshold - a = (rint (a / threshold) - a / threshold) * threshold := by
    rw [sub_mul, div_mul_cancel₀ _ (ne_of_gt ht)]
  rw [this, abs_mul, abs_of_pos ht]
  calc |rint (a / threshold) - a / threshold| * threshold ≤ 1 / 2 * threshold := mul_le_mul_of_nonneg_right h ht.le
    _ = threshold / 2 := by ring

/-! ### the model that is read -/

theorem ready_first (ptr : Nat) {f : NetFile K} (hf : f.Valid) (htm : f.Temporal) {m : Model K} {i : Interface} (h : NetFile.parseModel ptr f = ok (some (m, i))) :
    Ready f f i m ∧ IsInterface f i := by
  obtain ⟨m', i', h1, h2, h3, h4, h5, h6⟩ := interface_spec ptr hf htm
  rw [h] at h1
  cases h1
  obtain ⟨mb, b1, b2, b3, _, _, _, _, b8⟩ := build_parts ptr hf
  rw [h2] at b1
  cases b1
  refine ⟨⟨Or.inl rfl, ⟨h3, fun v => by rw [(b3 v).1, givens_eq], fun c x => ?_⟩, h4⟩, h5, h6⟩
  rw [b8]
  rfl

/-- What must be added to good files, so that the network can be written and read again. -/
structure WritableNet (d : NetText) : Prop where
  separators : ∀ n ∈ d.nodes, ∀ w ∈ n.states, w.any separators.contains = false
  parents : ∀ p ∈ d.pots, (p.parents.getD []).length ≤ 100
  states : ∀ n ∈ d.nodes, n.states.length ≤ 1000000

theorem opened_writable {num : Numerals K} (hint : ∀ w n, num.int w = some n → n < 2147483648) {d : NetText} {net data : List Char} (h : GoodFiles num d net data)
    (hw : WritableNet d) (ptr : Nat) {s : Session K} (hr : s.lex.readLine = true) (hg : s.g.Fresh) (hsize : s.g.sizeX < 2147483648 ∧ s.g.sizeY < 2147483648) :
    ∃ r e i, parseModel num ptr s net = ok (some r, e) ∧ openFiles num ptr s net data = ok (some (r, i, (groupsOf data).map (readGroup r.texts r.file.vars data))) ∧
      r.file.Valid ∧ r.file.Temporal ∧ d.Describes num.value s.g.nextId r.file ∧ NetFile.parseModel ptr r.file = ok (some (r.model, i)) ∧
      TellsNodes d s.g.nextId r.texts ∧ r.Printable ∧ (∀ q ∈ r.file.pots, ∀ u ∈ q.parents, q.child < u) ∧ ∀ v ∈ r.file.vars, r.file.card v ≤ 1000000 := by
  obtain ⟨r, i, h1, hV, hT, hD, h2, hx⟩ := opened h.toUsableFiles ptr hr hg
  obtain ⟨m0, l, a, b, e, hb, hV', hD', _, hab, hp⟩ := parse_sizes h.sensible h.laidOut h.short.names h.pots h.labels ptr s hr hg
  have hrr : r = { model := m0, file := NetText.file d num s.g.nextId l, nodes := recsFrom num s.g.nextId d.nodes, sizeX := a, sizeY := b } := by
    unfold openFiles openModel at h1
    rw [hp] at h1
    simp only [ok_bind] at h1
    obtain ⟨j, k1, k2⟩ := bind_ok h1
    obtain ⟨j', k3, k4⟩ := bind_ok k1
    cases k4
    simp only at k2
    obtain ⟨j', k5, k6⟩ := bind_ok k2
    cases j' with
    | none => cases k6
    | some st => cases k6; rfl
  have hab' : a < 2147483648 ∧ b < 2147483648 := by
    have : ∀ w, (num.int w).getD 0 < 2147483648 := by
      intro w
      cases hq : num.int w with
      | none => simp
      | some n => exact hint _ _ hq
    unfold sizesAfter at hab
    cases hq : sizeGiven d.frame.fields with
    | none =>
      rw [hq] at hab
      cases hab
      exact hsize
    | some p =>
      rw [hq] at hab
      cases hab
      exact ⟨this _, this _⟩
  refine ⟨r, _, i, by rw [hrr]; exact hp, h1, hV, hT, hD, h2, hx, ?_, ?_, ?_⟩
  · rw [hrr]
    exact read_printable h.sensible h.laidOut h.short hw.separators hw.parents hint hV' hD' m0 hab'.1 hab'.2
  · intro q hq u hu
    obtain ⟨p, hpp, hst⟩ := forall₂_right hD.pots hq
    rw [hst.parents, List.mem_reverse] at hu
    rw [hst.child]
    have hmap : (p.parents.map (fun l => l.map (fun w => s.g.nextId + d.place w))).getD [] = (p.parents.getD []).map (fun w => s.g.nextId + d.place w) := by
      cases p.parents <;> rfl
    rw [hmap] at hu
    obtain ⟨w, hw, rfl⟩ := List.mem_map.1 hu
    have := h.order p hpp w hw
    omega
  · intro v hv
    obtain ⟨n, hn, rfl⟩ := node_of h.sensible hD hv
    rw [hD.card n hn]
    exact hw.states n hn

theorem acyclic_of_first {f : NetFile K} (hf : f.Valid) (hfirst : ∀ q ∈ f.pots, ∀ u ∈ q.parents, q.child < u) : f.Acyclic := by
  refine ⟨fun v => f.vars.sum - v, fun q hq u hu => ?_⟩
  have h1 := hfirst q hq u hu
  have h2 : u ≤ f.vars.sum := List.le_sum_of_mem ((hf.parents q hq).2 u hu).1
  show f.vars.sum - u < f.vars.sum - q.child
  omega

/-! ### what is learned -/

theorem relearn_occurs {f : NetFile K} (hf : f.Valid) {c : Nat → List Nat → K} (hc : ∀ v cell, 0 < c v cell) : ∀ q ∈ (f.relearn c).pots, ∀ x,
    Legal (f.relearn c).card (f.relearn c).vars x → Occurs (f.relearn c) q x := by
  intro q hq x hx
  refine ⟨x, hx, fun _ _ => rfl, ?_⟩
  have hval := relearn_valid hf (count := c) (fun v cell => (hc v cell).le)
  have hx' : Legal f.card f.vars x := hx
  rw [(net_local hval).tables x (wrap f.card x) (fun v hv => (Nat.mod_eq_of_lt (hx' v hv)).symm), relearn_tables hf]
  refine (List.prod_pos fun a ha => ?_).ne'
  obtain ⟨v, hv, rfl⟩ := List.mem_map.1 ha
  rw [cell_legal hf (List.mem_filter.mp hv).1 hx']
  exact theta_pos hf hc (List.mem_filter.mp hv).1 x

/-- the network that a call without bad luck leaves: a later round -/
theorem net_later {a : Lesson K} (hf : a.file.Valid) {c : Spec.Call K} (h0 : ∀ v cell, 0 ≤ c.start v cell) (hl : 1 ≤ c.last) :
    ∃ count, (∀ v cell, 0 < count v cell) ∧ c.net a = a.file.relearn count := by
  obtain ⟨k, hk⟩ : ∃ k, c.last = k + 1 := ⟨c.last - 1, by omega⟩
  refine ⟨a.file.learnRounds a.data c.start c.last, ?_, rfl⟩
  rw [hk]
  exact fun v cell => learnRound_pos hf a.data (learnRounds_nonneg hf a.data h0 k) v cell

end Nip
