import Verif.PotentialIntLemmas
import Mathlib.Data.Rat.Defs

/-!
# C101: sizes and indices of potentials and the integers of the machine

`M` is the largest `int`; for the usual machine `2 ^ 31 - 1`.  The functions whose names end in `Int` are those of the library with every product and sum
of integers checked; an `ok` result therefore means that none was too large.  The functions without the ending calculate with unbounded integers; what
they compute is stated in C01 to C12.
-/

namespace Nip.Props

open Res Spec Potential

/-- A product of a leading part of the numbers of states is too large. -/
def PrefixOverflows (M : Nat) (card : List Nat) : Prop := ∃ k, k ≤ card.length ∧ M < (card.take k).prod

/-- A potential with one cell per tuple of states, not more than the largest `int`. -/
structure InInts {K : Type} (M : Nat) (p : Potential K) : Prop where
  cells : p.data.length = p.card.prod
  states : ∀ c ∈ p.card, 0 < c
  size : p.data.length ≤ M

variable {K : Type} [Zero K] [One K] [Add K] [Sub K] [Mul K] [Div K] [LinearOrder K]

theorem InInts.wf {M : Nat} {p : Potential K} (h : InInts M p) : p.Wf := ⟨h.cells, h.states⟩

theorem inInts_of {M : Nat} {p q : Potential K} (hp : InInts M p) (hq : q.Wf) (hc : q.card = p.card) : InInts M q :=
  ⟨hq.1, hq.2, by rw [hq.1, hc, ← hp.cells]; exact hp.size⟩

/-- **C101**, creation: undefined exactly if a product of leading numbers of states is too large, and else as with unbounded integers. -/
theorem C101_creation {M : Nat} (hM : 1 ≤ M) (card : List Nat) (data : Option (List K)) (hd : ∀ a, data = some a → card.prod ≤ a.length) :
    (newInt M card card.length data = ub ↔ PrefixOverflows M card) ∧
    (¬ PrefixOverflows M card → ∃ p, newInt M card card.length data = ok (some p) ∧ p.card = card ∧ p.data.length = card.prod ∧ p.data.length ≤ M ∧
      ∀ i, i < card.prod → p.data[i]? = match data with | none => some 1 | some a => a[i]?) := by
  have good : ¬ PrefixOverflows M card → ∃ p, newInt M card card.length data = ok (some p) ∧ p.card = card ∧ p.data.length = card.prod ∧ p.data.length ≤ M ∧
      ∀ i, i < card.prod → p.data[i]? = match data with | none => some 1 | some a => a[i]? := by
    intro h
    unfold PrefixOverflows at h
    push Not at h
    have hs := h card.length le_rfl
    rw [List.take_length] at hs
    rw [newInt_eq le_rfl h]
    cases data with
    | none =>
      refine ⟨_, new_none, rfl, by simp, by simpa using hs, fun i hi => ?_⟩
      simp [hi]
    | some a =>
      have ha := hd a rfl
      refine ⟨_, new_some ha, rfl, ?_, ?_, fun i hi => ?_⟩
      · simp; exact ha
      · simp; omega
      · simp [hi]
  refine ⟨⟨fun h => ?_, fun ⟨k, h1, h2⟩ => newInt_ub hM le_rfl ⟨k, h1, h2⟩ data⟩, good⟩
  by_contra hc
  obtain ⟨p, hp, _⟩ := good hc
  rw [hp] at h
  cases h

/-- **C101**, creation, if each variable has a state: undefined exactly if the table is too large. -/
theorem C101_creation_states {M : Nat} (hM : 1 ≤ M) {card : List Nat} (hpos : ∀ c ∈ card, 0 < c) (data : Option (List K))
    (hd : ∀ a, data = some a → card.prod ≤ a.length) :
    (newInt M card card.length data = ub ↔ M < card.prod) ∧ (card.prod ≤ M → ∃ p, newInt M card card.length data = ok (some p) ∧ p.card = card ∧ InInts M p) := by
  have e : PrefixOverflows M card ↔ M < card.prod := by
    constructor
    · rintro ⟨k, _, h⟩
      exact lt_of_lt_of_le h (take_prod_le hpos k)
    · intro h
      exact ⟨card.length, le_rfl, by rwa [List.take_length]⟩
  obtain ⟨h1, h2⟩ := C101_creation hM card data hd
  refine ⟨h1.trans e, fun h => ?_⟩
  obtain ⟨p, a, b, c, d, _⟩ := h2 (by rw [e]; omega)
  exact ⟨p, a, b, ⟨c.trans (by rw [b]), by rw [b]; exact hpos, d⟩⟩

/-- **C101**, not refused: tables over 31 or more variables with two states each are undefined with ints of 32 bits, whatever the numbers to put in. -/
theorem C101_two_states (n : Nat) (hn : 31 ≤ n) (data : Option (List K)) : newInt (2 ^ 31 - 1) (List.replicate n 2) n data = ub := by
  have := newInt_ub (K := K) (M := 2 ^ 31 - 1) (by norm_num) (card := List.replicate n 2) (d := n) (by simp) ⟨n, le_rfl, by
    rw [List.take_of_length_le (by simp), List.prod_replicate]
    calc 2 ^ 31 - 1 < 2 ^ 31 := by norm_num
      _ ≤ 2 ^ n := Nat.pow_le_pow_right (by norm_num) hn⟩ data
  exact this

/-- **C101**, addresses: the cell of a tuple of states, read and written. -/
theorem C101_address {M : Nat} (hM : 1 ≤ M) {p : Potential K} (hp : InInts M p) {idx : List Nat} (hi : InRange p.card idx) (v : K) :
    pointerInt M p.card idx = ok (position p.card idx) ∧ getValueInt M p idx = ok (p.at' idx) ∧
    ∃ q, setValueInt M p idx v = ok q ∧ setValue p idx v = ok q ∧ q.card = p.card ∧ InInts M q := by
  have h1 : pointerInt M p.card idx = ok (position p.card idx) := pointerInt_eq hM hp.states hi (by rw [← hp.cells]; exact hp.size)
  have h2 : pointer p.card idx = ok (position p.card idx) := pointer_eq (by rw [inRange_length hi])
  have hlt : position p.card idx < p.data.length := by rw [hp.cells]; exact position_lt hi
  refine ⟨h1, ?_, ⟨p.card, p.data.set (position p.card idx) v⟩, ?_, ?_, rfl, inInts_of hp (set_wf hp.wf _ v) rfl⟩
  · unfold getValueInt
    rw [h1, ok_bind, at'_rd hp.wf hi]
  · unfold setValueInt
    rw [h1, ok_bind, wr_lt hlt, ok_bind]
  · unfold setValue
    rw [h2, ok_bind, wr_lt hlt, ok_bind]

/-- **C101**, indices: the tuple of states of a cell. -/
theorem C101_indices {M : Nat} {p : Potential K} (hp : InInts M p) {i : Nat} (hi : i < p.data.length) :
    ∃ idx, indicesOfInt M p i = ok idx ∧ indicesOf p i = ok idx ∧ InRange p.card idx ∧ position p.card idx = i := by
  have h := indicesOf_eq hp.wf hi
  refine ⟨_, ?_, h, digits_inRange hp.states i, position_digits (by rw [← hp.cells]; exact hi)⟩
  rw [indicesOfInt_eq p (by have := hp.size; omega), h]

private def anyNumber : Closed (fun _ : K => True) :=
  ⟨trivial, trivial, fun _ _ _ _ => trivial, fun _ _ _ _ => trivial, fun _ _ _ _ _ => trivial⟩

/-- **C101**, marginalisation onto some of the variables. -/
theorem C101_marginal {M : Nat} (hM : 1 ≤ M) {p q : Potential K} (hp : InInts M p) (hq : InInts M q) {mapping : List Nat} (hm : Into p.card mapping q.card)
    (hdim : q.card.length ≤ p.card.length) :
    ∃ r, generalMarginaliseInt M p q mapping = ok (0, r) ∧ generalMarginalise p q mapping = ok (0, r) ∧ r.card = q.card ∧ InInts M r := by
  obtain ⟨r, h1, h2, h3, _⟩ := general_any anyNumber hp.wf hq.wf hm hdim (fun _ _ => trivial)
  exact ⟨r, (generalMarginaliseInt_eq hM hp.wf hq.wf hp.size hq.size hm).trans h1, h1, h3, inInts_of hq h2 h3⟩

/-- **C101**, marginalisation onto one variable. -/
theorem C101_total {M : Nat} {p : Potential K} (hp : InInts M p) {dest : List K} {v : Nat} (hv : v < p.card.length) (hl : p.card[v] ≤ dest.length) :
    ∃ r, totalMarginaliseInt M p dest v = ok (0, r) ∧ totalMarginalise p dest v = ok (0, r) ∧ r.length = dest.length := by
  obtain ⟨r, h1, h2, _⟩ := total_any anyNumber hp.wf (fun _ _ => trivial) (dest := dest) (fun _ _ => trivial) hv hl
  exact ⟨r, (totalMarginaliseInt_eq hp.size dest v).trans h1, h1, h2⟩

/-- **C101**, multiplication and division by tables over some of the variables. -/
theorem C101_update {M : Nat} (hM : 1 ≤ M) {p : Potential K} (hp : InInts M p) {num den : Option (Potential K)} {mapping : List Nat}
    (hsome : num ≠ none ∨ den ≠ none) (hn : ∀ n, num = some n → InInts M n ∧ Into p.card mapping n.card)
    (hd : ∀ d, den = some d → InInts M d ∧ Into p.card mapping d.card) (hdim : mapping.length ≤ p.card.length) :
    ∃ r, updateInt M num den p mapping = ok (0, r) ∧ update num den p mapping = ok (0, r) ∧ r.card = p.card ∧ InInts M r := by
  have h := update_ofFn hp.wf hsome (fun n e => ⟨(hn n e).1.wf, (hn n e).2⟩) (fun n e => ⟨(hd n e).1.wf, (hd n e).2⟩) (fun _ _ => hdim)
  refine ⟨_, ?_, h, rfl, inInts_of hp (ofFn_wf hp.states _) rfl⟩
  rw [updateInt_eq hM hp.wf hp.size (fun n e => ⟨(hn n e).1.wf, (hn n e).1.size, (hn n e).2⟩) (fun n e => ⟨(hd n e).1.wf, (hd n e).1.size, (hd n e).2⟩), h]

/-- **C101**, multiplication of evidence. -/
theorem C101_evidence {M : Nat} {p : Potential K} (hp : InInts M p) {num : List K} {den : Option (List K)} {v : Nat} (hv : v < p.card.length)
    (hn : p.card[v] ≤ num.length) (hd : ∀ d, den = some d → p.card[v] ≤ d.length) :
    ∃ r, updateEvidenceInt M num den p v = ok r ∧ updateEvidence num den p v = ok r ∧ r.card = p.card ∧ InInts M r := by
  have h := updateEvidence_ofFn hp.wf hv hn hd
  exact ⟨_, (updateEvidenceInt_eq hp.size num den v).trans h, h, rfl, inInts_of hp (ofFn_wf hp.states _) rfl⟩

/-- **C101**, initialisation from a table over some of the variables. -/
theorem C101_init {M : Nat} (hM : 1 ≤ M) {p q : Potential K} (hp : InInts M p) (hq : InInts M q) {mapping : List Nat} (hm : Into p.card mapping q.card) :
    ∃ r, initInt M q p (some mapping) = ok (0, r) ∧ init q p (some mapping) = ok (0, r) ∧ r.card = p.card ∧ InInts M r := by
  have e : initInt M q p (some mapping) = init q p (some mapping) :=
    initInt_eq hM hp.wf hq.wf hp.size hq.size (fun l h => by cases h; exact hm)
  by_cases h0 : q.dim = 0
  · have : init q p (some mapping) = ok (0, p) := by
      unfold init
      simp only [if_pos h0]
    exact ⟨p, e.trans this, this, rfl, hp⟩
  · have h := init_ofFn_mapping hp.wf hq.wf hm h0
    exact ⟨_, e.trans h, h, rfl, inInts_of hp (ofFn_wf hp.states _) rfl⟩

/-- **C101**, the two normalisations that step through the table. -/
theorem C101_normalise {M : Nat} (hM : 1 ≤ M) {p : Potential K} (hp : InInts M p) :
    normaliseCpdInt M p = normaliseCpd p ∧ ∀ dimension : Int, normaliseDimensionInt M p dimension = normaliseDimension p dimension :=
  ⟨normaliseCpdInt_eq hp.wf hp.size, normaliseDimensionInt_eq hM hp.wf hp.size⟩

/-! ## cases -/

/-- A leading part may be too large although the table is empty. -/
example : PrefixOverflows (2 ^ 31 - 1) [65536, 65536, 0] := ⟨2, by decide, by decide⟩

example : ¬ PrefixOverflows (2 ^ 31 - 1) (List.replicate 30 2) := by
  unfold PrefixOverflows
  push Not
  decide

/-- A table of 2 × 3 × 2 cells and one of 2 × 2 for ints not larger than 12: nothing is left over. -/
def twelve : Potential ℚ := ⟨[2, 3, 2], [1, 2, 3, 4, 5, 6, 7, 8, 9, 10, 11, 12]⟩

theorem twelve_inInts : InInts 12 twelve := ⟨by decide, by decide, by decide⟩

theorem four_inInts : InInts 12 (⟨[2, 2], [1, 0, 1 / 2, 1 / 2]⟩ : Potential ℚ) := ⟨by decide, by decide, by decide⟩

example : ¬ InInts 11 twelve := fun h => absurd h.size (by decide)

example := C101_creation_states (K := ℚ) (M := 12) (by decide) (card := [2, 3, 2]) (by decide) (some twelve.data) (by rintro a h; cases h; decide)

example := C101_address (by decide) twelve_inInts (idx := [1, 2, 1]) (by decide) 7

example : pointerInt 12 twelve.card [1, 2, 1] = ok 11 ∧ pointerInt 11 twelve.card [1, 2, 1] = ub := by decide

example := C101_indices twelve_inInts (i := 11) (by decide)

example := C101_marginal (by decide) twelve_inInts four_inInts (mapping := [2, 0]) (by decide) (by decide)

example : generalMarginaliseInt 12 twelve ⟨[2, 2], [1, 0, 1 / 2, 1 / 2]⟩ [2, 0] = ok (0, ⟨[2, 2], [9, 27, 12, 30]⟩) := by decide +kernel

example := C101_total twelve_inInts (dest := [0, 0, 0]) (v := 1) (by decide) (by decide)

example := C101_update (by decide) twelve_inInts (num := some _) (den := none) (mapping := [2, 0]) (by simp) (by rintro n h; cases h; exact ⟨four_inInts, by decide⟩)
  (by rintro n h; cases h) (by decide)

example := C101_evidence twelve_inInts (num := [1, 0, 1]) (den := some [1, 1, 0]) (v := 1) (by decide) (by decide) (by rintro n h; cases h; decide)

example := C101_init (by decide) twelve_inInts four_inInts (mapping := [0, 2]) (by decide)

example := C101_normalise (by decide) twelve_inInts

end Nip.Props
