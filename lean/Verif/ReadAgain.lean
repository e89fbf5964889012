import Verif.Props.RoundTrip

/-!
# Models that come from network files can be printed
-/

namespace Nip

open Res Spec

set_option linter.unusedSectionVars false

variable {K : Type} [Field K] [LinearOrder K] [IsStrictOrderedRing K]

open Props in
/-- the lexemes of a file that is laid out -/
theorem laidOut_legal {d : NetText} {file : List Char} (hf : LaidOut d file) {t : Lexeme} (ht : t ∈ d.lexemes) : t.Legal := by
  obtain ⟨ls, h1, h2, _⟩ := hf
  rw [← h2] at ht
  obtain ⟨l, hl, ht⟩ := List.mem_flatMap.1 ht
  obtain ⟨p, hp, rfl⟩ := List.mem_map.1 ht
  exact ((h1 l hl).items p hp).1

theorem node_lexemes {d : NetText} {n : NodeText} (hn : n ∈ d.nodes) {t : Lexeme} (ht : t ∈ n.lexemes) : t ∈ d.lexemes := by
  have h : t ∈ d.nodes.flatMap NodeText.lexemes := List.mem_flatMap.2 ⟨n, hn, ht⟩
  unfold NetText.lexemes
  cases d.frame <;> simp only [List.mem_append, h, true_or, or_true]

theorem field_lexemes {n : NodeText} {k : NodeField} (hk : k ∈ n.fields) {t : Lexeme} (ht : t ∈ k.lexemes) : t ∈ n.lexemes := by
  have h : t ∈ n.fields.flatMap NodeField.lexemes := List.mem_flatMap.2 ⟨k, hk, ht⟩
  unfold NodeText.lexemes
  simp only [List.mem_append, h, true_or, or_true]

theorem label_lexeme {n : NodeText} {w : List Char} (h : n.label = some w) : Lexeme.text w ∈ n.lexemes := by
  obtain ⟨k, hk, h2⟩ := List.exists_of_findSome?_eq_some h
  cases k <;> simp only [NodeField.labelOf, Option.some.injEq, reduceCtorEq] at h2
  subst h2
  exact field_lexemes hk (by simp [NodeField.lexemes])

theorem state_lexeme {n : NodeText} {w : List Char} (h : w ∈ n.states) : Lexeme.text w ∈ n.lexemes := by
  unfold NodeText.states at h
  cases hq : n.fields.findSome? NodeField.statesOf with
  | none => rw [hq] at h; cases h
  | some l =>
    rw [hq] at h
    obtain ⟨k, hk, h2⟩ := List.exists_of_findSome?_eq_some hq
    cases k <;> simp only [NodeField.statesOf, Option.some.injEq, reduceCtorEq] at h2
    subst h2
    refine field_lexemes hk ?_
    simp only [NodeField.lexemes, List.mem_append, List.mem_map]
    exact Or.inl (Or.inr ⟨w, h, rfl⟩)

/-- every variable that is read comes from a node -/
theorem mem_recs {num : Numerals K} {i : Nat} {ns : List NodeText} {v : NodeRec} (h : v ∈ recsFrom num i ns) : ∃ j, ∃ hj : j < ns.length, v = nodeRec num (i + j) ns[j] := by
  obtain ⟨j, hj, rfl⟩ := List.getElem_of_mem h
  rw [recs_length] at hj
  refine ⟨j, hj, ?_⟩
  have := recs_getElem num ns i j hj
  rw [List.getElem?_eq_some_iff] at this
  exact this.2

theorem forall₂_right {α β : Type} {R : α → β → Prop} {l : List α} {k : List β} (h : List.Forall₂ R l k) {b : β} (hb : b ∈ k) : ∃ a ∈ l, R a b := by
  induction h with
  | nil => cases hb
  | cons h1 _ ih =>
    rcases List.mem_cons.1 hb with rfl | hb
    · exact ⟨_, by simp, h1⟩
    · obtain ⟨a, h2, h3⟩ := ih hb
      exact ⟨a, List.mem_cons_of_mem _ h2, h3⟩

/-- numbers that were scaled are at most one -/
theorem scaled_le_one {card : Nat → Nat} {v : Nat} {g : (Nat → Nat) → K} (hg : ∀ x, 0 ≤ g x) {x : Nat → Nat} (hx : x v < card v) : scaled card v g x ≤ 1 := by
  have hself : withState x v (x v) = x := by
    funext u
    unfold withState
    split
    · rename_i h; rw [h]
    · rfl
  have hle : g x ≤ ∑ i ∈ Finset.range (card v), g (withState x v i) := by
    have := Finset.single_le_sum (f := fun i => g (withState x v i)) (fun i _ => hg _) (Finset.mem_range.2 hx)
    simpa only [hself] using this
  unfold scaled
  split
  · rename_i h
    rw [h] at hle
    exact hle.trans zero_le_one
  · rename_i h
    have h0 : 0 < ∑ i ∈ Finset.range (card v), g (withState x v i) := lt_of_le_of_ne (Finset.sum_nonneg fun i _ => hg _) (Ne.symm h)
    rw [div_le_one h0]
    exact hle

theorem written_nonneg {card : Nat → Nat} {c : Nat} {ps : List Nat} {data : List K} (h : ∀ a ∈ data, 0 ≤ a) (x : Nat → Nat) : 0 ≤ written card c ps data x := by
  unfold written
  rw [List.getD_eq_getElem?_getD]
  cases hq : data[rowMajor card x (ps ++ [c])]? with
  | none => exact le_refl _
  | some a => exact h a (List.mem_of_getElem? hq)

theorem tableValue_le_one {card : Nat → Nat} {v c : Nat} {ps : Option (List Nat)} {data : Option (List K)} (h : ∀ l, data = some l → ∀ a ∈ l, 0 ≤ a) {x : Nat → Nat} (hx : x v < card v) :
    tableValue card v c ps data x ≤ 1 := by
  unfold tableValue
  cases data with
  | some l => exact scaled_le_one (written_nonneg (h l rfl)) hx
  | none =>
    show (if ps = none then (1 : K) else scaled card v (fun _ => 1) x) ≤ 1
    split
    · exact le_refl _
    · exact scaled_le_one (fun _ => zero_le_one) hx

/-- **What reading a network file gives can be printed**, if the texts are short and the names of states have no separators. -/
theorem read_printable {num : Numerals K} {d : NetText} {file : List Char} (hd : d.Sensible num.value num.int) (hf : Props.LaidOut d file) (hs : Props.ShortTexts d)
    (hsep : ∀ n ∈ d.nodes, ∀ w ∈ n.states, w.any separators.contains = false) (hfew : ∀ p ∈ d.pots, (p.parents.getD []).length ≤ 100)
    (hint : ∀ w n, num.int w = some n → n < 2147483648) {base a b : Nat} {f : NetFile K} (hV : f.Valid) (hD : d.Describes num.value base f) (m : Model K)
    (ha : a < 2147483648) (hb : b < 2147483648) :
    ReadModel.Printable { model := m, file := f, nodes := recsFrom num base d.nodes, sizeX := a, sizeY := b } := by
  have hname : ∀ n ∈ d.nodes, IsName n.name ∧ ¬ LooksSpecial n.name := fun n hn =>
    laidOut_legal hf (t := .name n.name) (node_lexemes hn (by simp [NodeText.lexemes]))
  have hlabel : ∀ n ∈ d.nodes, ('"' ∉ n.label.getD " ".toList ∧ '\n' ∉ n.label.getD " ".toList) ∧ (n.label.getD " ".toList).length ≤ 40 := by
    intro n hn
    cases hq : n.label with
    | none => decide
    | some w => exact ⟨laidOut_legal hf (t := .text w) (node_lexemes hn (label_lexeme hq)), hs.labels n hn w hq⟩
  have hstates : ∀ n ∈ d.nodes, n.states.map cutText = n.states := by
    intro n hn
    conv_rhs => rw [← List.map_id n.states]
    exact List.map_congr_left fun w hw => cutText_short (hs.states n hn w hw)
  have hget : ∀ (o : Option (List Char × List Char)) (g : List Char × List Char → List Char),
      (o.map (fun p => (num.int (g p)).getD 0)).getD 100 < 2147483648 := by
    intro o g
    cases o with
    | none => simp
    | some p =>
      show (num.int (g p)).getD 0 < _
      cases hq : num.int (g p) with
      | none => simp
      | some n => exact hint _ _ hq
  refine ⟨?_, ?_, ?_, ?_, ?_, ha, hb, ?_, ?_⟩
  · rw [hD.vars]
    exact recs_ids num d.nodes base
  · intro v hv
    obtain ⟨j, hj, rfl⟩ := mem_recs hv
    have hn : d.nodes[j] ∈ d.nodes := List.getElem_mem hj
    refine ⟨?_, ?_, ?_, ?_, ?_, ?_, ?_, ?_, ?_⟩
    · show IsName (cutText _) ∧ ¬ LooksSpecial (cutText _)
      rw [cutText_short (hs.names _ hn)]
      exact hname _ hn
    · show (cutText _).length ≤ 40
      rw [cutText_short (hs.names _ hn)]
      exact hs.names _ hn
    · show '"' ∉ cutText _ ∧ '\n' ∉ cutText _
      rw [cutText_short (hlabel _ hn).2]
      exact (hlabel _ hn).1
    · show (cutText _).length ≤ 40
      rw [cutText_short (hlabel _ hn).2]
      exact (hlabel _ hn).2
    · show List.map cutText _ ≠ []
      rw [hstates _ hn]
      exact (hd.nodes _ hn).states
    · show ∀ w ∈ List.map cutText _, _
      rw [hstates _ hn]
      exact fun w hw => ⟨laidOut_legal hf (t := .text w) (node_lexemes hn (state_lexeme hw)), hsep _ hn w hw⟩
    · show ∀ w ∈ List.map cutText _, _
      rw [hstates _ hn]
      exact hs.states _ hn
    · exact hget _ _
    · exact hget _ _
  · have : (recsFrom num base d.nodes).map (fun v => v.symbol) = d.nodes.map (fun n => n.name) := by
      apply List.ext_getElem
      · simp [recs_length]
      · intro j h1 h2
        rw [List.length_map] at h2
        have := recs_getElem num d.nodes base j h2
        rw [List.getElem?_eq_some_iff] at this
        rw [List.getElem_map, List.getElem_map, this.2]
        exact cutText_short (hs.names _ (List.getElem_mem h2))
    show ((recsFrom num base d.nodes).map (fun v => v.symbol)).Nodup
    rw [this]
    exact hd.names
  · intro v hv
    obtain ⟨j, hj, rfl⟩ := mem_recs hv
    show (List.map cutText _).length = f.card (base + j)
    have := hD.card _ (List.getElem_mem hj)
    rw [place_getElem hd.names hj] at this
    rw [this, List.length_map]
  · intro v hv u hu
    have hv : v ∈ f.vars := hv
    have hu : f.next v = some u := hu
    show u ∈ f.vars ∧ f.card u = f.card v
    rw [hD.vars, List.mem_range'_1] at hv
    obtain ⟨j, rfl⟩ : ∃ j, v = base + j := ⟨v - base, by omega⟩
    have hj : j < d.nodes.length := by omega
    have h1 := hD.next _ (List.getElem_mem hj)
    have h2 := hD.card _ (List.getElem_mem hj)
    rw [place_getElem hd.names hj] at h1 h2
    rw [h1, Option.map_eq_some_iff] at hu
    obtain ⟨w, hw, rfl⟩ := hu
    obtain ⟨⟨n, hn, rfl⟩, h4⟩ := hd.next _ (List.getElem_mem hj) w hw
    rw [hD.vars, List.mem_range'_1, h2, hD.card n hn, ← h4, card_place ⟨n, hn, rfl⟩]
    have := place_lt (d := d) ⟨n, hn, rfl⟩
    refine ⟨by omega, ?_⟩
    have h5 := hD.card _ (List.getElem_mem this)
    rw [place_name ⟨n, hn, rfl⟩, hD.card n hn] at h5
    exact h5
  · intro q hq
    obtain ⟨p, hp, hst⟩ := forall₂_right hD.pots hq
    rw [hst.parents]
    have := hfew p hp
    cases hpp : p.parents <;> simp_all
  · intro q hq hnil c hc
    have hq : q ∈ f.pots := hq
    obtain ⟨p, hp, hst⟩ := forall₂_right hD.pots hq
    have hps : (p.parents.map (fun l => l.map (fun w => base + d.place w))).getD [] = [] := by
      have := hst.parents
      rw [hnil] at this
      exact List.reverse_eq_nil_iff.1 this.symm
    have hfam : f.family q = [q.child] := by
      have hnd : f.vars.Nodup := hV.sorted.imp ne_of_lt
      unfold NetFile.family
      rw [hnil]
      simp only [List.not_mem_nil, or_false]
      have := List.filter_beq (l := f.vars) q.child
      rw [List.count_eq_one_of_mem hnd (hV.child q hq)] at this
      exact this
    have hcard : q.table.card = [f.card q.child] := by rw [(hV.shape q hq).1, hfam]; rfl
    obtain ⟨i, hi, rfl⟩ := List.getElem_of_mem hc
    have hi' : i < f.card q.child := by
      have := (hV.shape q hq).2
      rw [hcard] at this
      simp only [List.prod_cons, List.prod_nil, mul_one] at this
      omega
    have hent : f.entry q (fun _ => i) = q.table.data[i] := by
      unfold NetFile.entry Potential.at' cellOf
      rw [hfam, hcard, List.getD_eq_getElem?_getD]
      have : position [f.card q.child] (List.map (fun _ => i) [q.child]) = i := by simp [position]
      rw [this, List.getElem?_eq_getElem hi]
      rfl
    rw [← hent, hst.table (fun _ => i) ?_ q.child [] hfam]
    · refine tableValue_le_one ?_ hi'
      intro l hl a ha
      obtain ⟨g, hg, rfl⟩ := Option.map_eq_some_iff.1 hl
      obtain ⟨w, hw, rfl⟩ := List.mem_map.1 ha
      exact ((hd.pots p hp).numbers g hg).2 w hw
    · rw [hps]
      intro v hv
      rw [List.mem_singleton.1 hv, ← hst.child]
      exact hi'

end Nip
