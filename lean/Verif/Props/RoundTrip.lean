import Verif.RoundTripTables
import Verif.Props.HuginParse
import Verif.Props.WriteModel

/-!
# C71: a model that is written and read again
-/

namespace Nip

open Res Spec

set_option linter.unusedSectionVars false
set_option synthInstance.maxSize 1000

variable {K : Type} [Field K] [LinearOrder K] [IsStrictOrderedRing K]

namespace Props

/-- What is assumed about the C library: `%f` writes a number between zero and one as a number of at most 40 characters, from which `strtod` makes a
non-negative number that differs by half a millionth at most, and zero for zero; `%d` writes an `int` such that it is read as the same. -/
structure Formats (num : Numerals K) (fmt : K → List Char) : Prop where
  text : ∀ a, 0 ≤ a → a ≤ 1 → IsNumber (fmt a) ∧ (fmt a).length ≤ 40
  near : ∀ a, 0 ≤ a → a ≤ 1 → |num.value (fmt a) - a| ≤ 1 / 2000000
  nonneg : ∀ a, 0 ≤ a → a ≤ 1 → 0 ≤ num.value (fmt a)
  zero : num.value (fmt 0) = 0
  int : ∀ n, n < 2147483648 → num.int (printNat n) = some n

/-- The models have the same texts, positions, sizes, variables, numbers of states, links and parents, where `ρ` gives the new identities. -/
structure SameShape (ρ : Nat → Nat) (r r2 : ReadModel K) : Prop where
  different : ∀ u ∈ r.file.vars, ∀ v ∈ r.file.vars, ρ u = ρ v → u = v
  nodes : r2.nodes = r.nodes.map (fun n => { n with id := ρ n.id })
  sizes : r2.sizeX = r.sizeX ∧ r2.sizeY = r.sizeY
  vars : r2.file.vars = r.file.vars.map ρ
  card : ∀ v ∈ r.file.vars, r2.file.card (ρ v) = r.file.card v
  next : ∀ v ∈ r.file.vars, r2.file.next (ρ v) = (r.file.next v).map ρ
  parents : ∀ v ∈ r.file.vars, r2.file.givens (ρ v) = (r.file.givens v).map ρ

/-- The numbers of the tables differ by at most the number of states times a millionth. -/
def CloseTables (ρ : Nat → Nat) (f g : NetFile K) : Prop :=
  ∀ q ∈ f.pots, ∃ q2 ∈ g.pots, q2.child = ρ q.child ∧ ∀ y, Legal g.card g.vars y →
    |g.entry q2 y - f.entry q (fun v => y (ρ v))| ≤ f.card q.child / 1000000

/-- The same, except that numbers for states of the parents that cannot occur may be zero. -/
def CloseColumns (ρ : Nat → Nat) (f g : NetFile K) : Prop :=
  ∀ q ∈ f.pots, ∃ q2 ∈ g.pots, q2.child = ρ q.child ∧ ∀ y, Legal g.card g.vars y →
    |g.entry q2 y - f.entry q (fun v => y (ρ v))| ≤ f.card q.child / 1000000 ∨ (g.entry q2 y = 0 ∧ ¬ Occurs f q (fun v => y (ρ v)))

/-- A process that has read nothing yet reads from the text a model that is built from its file, of the same shape, and `Good`. -/
def ReadsBack (num : Numerals K) (Good : (Nat → Nat) → NetFile K → NetFile K → Prop) (r : ReadModel K) (out : List Char) : Prop :=
  ∀ (ptr : Nat) (s : Session K), s.lex.readLine = true → s.g.Fresh →
    ∃ r2 e ρ, parseModel num ptr s out = ok (some r2, e) ∧ r2.file.Valid ∧ NetFile.build ptr r2.file = ok (some r2.model) ∧ SameShape ρ r r2 ∧ Good ρ r.file r2.file

/-- The model is written, is left in order, and a process that has read nothing yet reads from the text a model that is built from its file, of the same
shape, and `Good`. -/
def ComesBack (num : Numerals K) (fmt : K → List Char) (Good : (Nat → Nat) → NetFile K → NetFile K → Prop) (r : ReadModel K) : Prop :=
  ∃ out m2, writeModel fmt r = ok (out, m2) ∧ AnswersAs r.file.net m2 ∧
    ∀ (ptr : Nat) (s : Session K), s.lex.readLine = true → s.g.Fresh →
      ∃ r2 e ρ, parseModel num ptr s out = ok (some r2, e) ∧ r2.file.Valid ∧ NetFile.build ptr r2.file = ok (some r2.model) ∧ SameShape ρ r r2 ∧ Good ρ r.file r2.file

/-- The texts of a model: like `ReadModel.Printable`, but the names of states may have any characters except quotes and ends of lines. -/
structure Texts (r : ReadModel K) : Prop where
  ids : r.nodes.map (fun n => n.id) = r.file.vars
  symbols : ∀ n ∈ r.nodes, (IsName n.symbol ∧ ¬ LooksSpecial n.symbol) ∧ n.symbol.length ≤ 40
  labels : ∀ n ∈ r.nodes, ('"' ∉ n.label ∧ '\n' ∉ n.label) ∧ n.label.length ≤ 40
  stateNames : ∀ n ∈ r.nodes, ∀ w ∈ n.states, ('"' ∉ w ∧ '\n' ∉ w) ∧ w.length ≤ 40
  positions : ∀ n ∈ r.nodes, n.posX < 2147483648 ∧ n.posY < 2147483648
  names : (r.nodes.map (fun n => n.symbol)).Nodup
  states : ∀ n ∈ r.nodes, n.states.length = r.file.card n.id
  next : ∀ v ∈ r.file.vars, ∀ u, r.file.next v = some u → u ∈ r.file.vars ∧ r.file.card u = r.file.card v
  sizes : r.sizeX < 2147483648 ∧ r.sizeY < 2147483648
  few : ∀ q ∈ r.file.pots, q.parents.length ≤ 100

variable (K) in
/-- **C71** in full. -/
def C71_full : Prop := ∀ (num : Numerals K) (fmt : K → List Char) (r : ReadModel K) (ptr : Nat) (hist : List (Op K)), Formats num fmt → r.file.Valid → r.file.Normalised →
  r.file.Acyclic → Texts r → (∀ v ∈ r.file.vars, r.file.card v ≤ 1000000) → (∀ op ∈ hist, op.Valid r.file.net) → NetFile.runFile ptr r.file hist = ok r.model →
  ComesBack num fmt CloseTables r

/-- the nodes that are read -/
theorem back_nodes {num : Numerals K} {fmt : K → List Char} (hF : Formats num fmt) {r : ReadModel K} (hf : r.file.Valid) (hp : r.Printable) (tab : Nat → Potential K) (base : Nat) :
    recsFrom num base (printedText fmt r tab).nodes = r.nodes.map (fun n => { n with id := renamed r.file base n.id }) := by
  have hnd : r.file.vars.Nodup := hf.sorted.imp ne_of_lt
  have hlen : (printedText fmt r tab).nodes.length = r.nodes.length := by simp [printedText]
  apply List.ext_getElem?
  intro j
  by_cases hj : j < r.nodes.length
  · rw [recs_getElem num _ base j (by rw [hlen]; exact hj), List.getElem?_map, List.getElem?_eq_getElem hj, Option.map_some]
    have hm : r.nodes[j] ∈ r.nodes := List.getElem_mem hj
    have hid : renamed r.file base r.nodes[j].id = base + j := by
      unfold renamed
      have h1 : r.nodes[j].id = r.file.vars[j]'(by rw [← hp.ids]; simpa using hj) := by simp [← hp.ids]
      rw [h1, hnd.idxOf_getElem]
    have hr := hp.readable _ hm
    have hn : (printedText fmt r tab).nodes[j]'(by rw [hlen]; exact hj) =
        printedNode ((r.file.next r.nodes[j].id).map (fun u => (recOf r.nodes u).symbol)) r.nodes[j] := by simp [printedText]
    obtain ⟨s1, s2, s3, s4⟩ := states_printed hf hp ((r.file.next r.nodes[j].id).map (fun u => (recOf r.nodes u).symbol)) r.nodes[j]
    rw [hid, hn]
    unfold nodeRec
    rw [s1, s2, s4]
    have hst : r.nodes[j].states.map cutText = r.nodes[j].states := by
      conv_rhs => rw [← List.map_id r.nodes[j].states]
      exact List.map_congr_left fun w hw => cutText_short (hr.statesShort w hw)
    simp only [Option.getD_some, Option.map_some, hF.int _ hr.posX, hF.int _ hr.posY, hst, cutText_short hr.labelShort]
    rw [show (printedNode ((r.file.next r.nodes[j].id).map (fun u => (recOf r.nodes u).symbol)) r.nodes[j]).name = r.nodes[j].symbol from rfl, cutText_short hr.nameShort]
  · rw [List.getElem?_eq_none (by rw [recs_length, hlen]; omega), List.getElem?_eq_none (by simpa using hj)]

/-- writing a model in any state and reading, with what is known about the tables -/
theorem idle_back {num : Numerals K} {fmt : K → List Char} (hF : Formats num fmt) {r : ReadModel K} (hf : r.file.Valid) (hp : r.Printable) {m1 : Model K} (i2 : r.model.reset = ok m1) (i3 : Model.Idle r.file m1)
    {Good : (Nat → Nat) → NetFile K → NetFile K → Prop}
    (hgood : ∀ tab base g, Model.TablesIn r.file tab → (r.file.Normalised → r.file.Acyclic → Model.TablesOf r.file tab) →
      (printedText fmt r tab).Describes num.value base g → g.Valid → Good (renamed r.file base) r.file g) :
    ∃ out m2, writeModel fmt r = ok (out, m2) ∧ Model.Idle r.file m2 ∧ Model.Same m1 m2 ∧ ReadsBack num Good r out := by
  obtain ⟨tab, out, m2, t1, t2, w1, w2, w3, w4⟩ := writeModel_laid hF.text hf hp i2 i3
  refine ⟨out, m2, w1, w2, w4, fun ptr' s hr hg => ?_⟩
  have hsens := printed_sensible hf hp tab t1 (num := num) hF.int hF.nonneg
  have hlab : LabelsLast (printedText fmt r tab) := by
    refine List.pairwise_iff_getElem.2 fun i j hi hj _ _ => ?_
    obtain ⟨v, _, hb⟩ := mem_printed hf hp tab (List.getElem_mem hj)
    rw [hb]
    rw [(states_printed hf hp _ _).2.1]
    simp
  have hshort : ∀ n ∈ (printedText fmt r tab).nodes, n.name.length ≤ 40 := by
    intro n hn
    obtain ⟨v, hv, rfl⟩ := mem_printed hf hp tab hn
    exact (hp.readable _ (textsOf_eq hp.ids hv).2.1).nameShort
  obtain ⟨m3, l, a, b, e, b1, b2, b3, _, b5, b6⟩ := parse_sizes hsens w3.finish hshort (pots_printed hf hp tab) hlab ptr' s hr hg
  have hsz : a = r.sizeX ∧ b = r.sizeY := by
    have : sizesAfter num (printedText fmt r tab).frame.fields (s.g.sizeX, s.g.sizeY) = (r.sizeX, r.sizeY) := by
      show ((num.int (printNat r.sizeX)).getD 0, (num.int (printNat r.sizeY)).getD 0) = _
      rw [hF.int _ hp.sizeX, hF.int _ hp.sizeY]
      rfl
    rw [this] at b5
    exact Prod.mk.inj b5
  refine ⟨_, _, renamed r.file s.g.nextId, b6, b2, b1, ⟨?_, ?_, hsz, ?_, ?_, ?_, ?_⟩, hgood tab _ _ t1 t2 b3 b2⟩
  · exact fun u hu v _ h => renamed_inj hu h
  · exact back_nodes hF hf hp tab _
  · exact back_vars hf hp b3
  · exact fun v hv => back_card hf hp b3 hv
  · exact fun v hv => back_next hf hp b3 hv
  · exact fun v hv => back_parents hf hp b3 t1 b2 hv

/-- writing and reading, with what is known about the tables -/
theorem comes_back {num : Numerals K} {fmt : K → List Char} (hF : Formats num fmt) {r : ReadModel K} (hf : r.file.Valid) (hp : r.Printable) {ptr : Nat} {hist : List (Op K)}
    (hh : ∀ op ∈ hist, op.Valid r.file.net) (hm : NetFile.runFile ptr r.file hist = ok r.model) {Good : (Nat → Nat) → NetFile K → NetFile K → Prop}
    (hgood : ∀ tab base g, Model.TablesIn r.file tab → (r.file.Normalised → r.file.Acyclic → Model.TablesOf r.file tab) →
      (printedText fmt r tab).Describes num.value base g → g.Valid → Good (renamed r.file base) r.file g) : ComesBack num fmt Good r := by
  obtain ⟨m, m1, i1, i2, i3⟩ := Model.idle_reset ptr hf hh
  rw [hm] at i1
  cases i1
  obtain ⟨out, m2, w1, w2, _, w3⟩ := idle_back hF hf hp i2 i3 hgood
  exact ⟨out, m2, w1, answersAs_of (net_local hf) w2.holds, w3⟩

/-- **C71**, the shape (partial): for every file, also with cycles or tables that are not normalised.  What is missing from `C71_full`: the numbers, and
names of states with separators. -/
theorem C71_shape_partial {num : Numerals K} {fmt : K → List Char} (hF : Formats num fmt) {r : ReadModel K} (hf : r.file.Valid) (hp : r.Printable) {ptr : Nat} {hist : List (Op K)}
    (hh : ∀ op ∈ hist, op.Valid r.file.net) (hm : NetFile.runFile ptr r.file hist = ok r.model) : ComesBack num fmt (fun _ _ _ => True) r :=
  comes_back hF hf hp hh hm fun _ _ _ _ _ _ _ => trivial

/-- the columns of the table that is printed -/
theorem full_columns {r : ReadModel K} (hf : r.file.Valid) (hn : r.file.Normalised) {tab : Nat → Potential K} (ht : Model.TablesOf r.file tab) {q : Parsed K}
    (hq : q ∈ r.file.pots) : RightColumns r.file q (fullTable r.file tab q.child) := by
  unfold fullTable
  rw [givens_child hf hq]
  split
  · rename_i h
    intro x hx
    left
    intro j hj
    have hfam : r.file.family q = [q.child] := by
      have hnd : r.file.vars.Nodup := hf.sorted.imp ne_of_lt
      unfold NetFile.family
      rw [h]
      simp only [List.not_mem_nil, or_false]
      have := List.filter_beq (l := r.file.vars) q.child
      rw [List.count_eq_one_of_mem hnd (hf.child q hq)] at this
      exact this
    have hprior : r.file.net.prior q.child = q.table.data := by
      show (match r.file.pots.find? (fun k => decide (k.child = q.child)) with | some k => k.table.data | none => List.replicate (r.file.card q.child) 0) = _
      have hsome : (r.file.pots.find? (fun k => decide (k.child = q.child))).isSome := by
        rw [List.find?_isSome]; exact ⟨q, hq, by simp⟩
      obtain ⟨k, hk⟩ := Option.isSome_iff_exists.1 hsome
      rw [hk]
      have h1 := List.find?_some hk
      rw [List.inj_on_of_nodup_map hf.distinct (List.mem_of_find?_eq_some hk) hq (by simpa using h1)]
    unfold NetFile.entry
    rw [hfam, h, hprior]
    unfold Potential.at'
    rw [(hf.shape q hq).1, hfam]
    simp
  · rename_i h
    exact right_columns hf hn hq (ht.column q hq h)

/-- the numbers, if children are declared before their parents -/
theorem close_columns {num : Numerals K} {fmt : K → List Char} (hF : Formats num fmt) {r : ReadModel K} (hf : r.file.Valid) (hn : r.file.Normalised) (hp : r.Printable)
    (hfirst : ∀ q ∈ r.file.pots, ∀ u ∈ q.parents, q.child < u) (hcard : ∀ v ∈ r.file.vars, r.file.card v ≤ 1000000) (tab : Nat → Potential K) (base : Nat) (g : NetFile K)
    (t1 : Model.TablesIn r.file tab) (t2 : r.file.Normalised → r.file.Acyclic → Model.TablesOf r.file tab)
    (hD : (printedText fmt r tab).Describes num.value base g) (hg : g.Valid) : CloseColumns (renamed r.file base) r.file g := by
  have hac : r.file.Acyclic := by
    refine ⟨fun v => r.file.vars.sum - v, fun q hq u hu => ?_⟩
    have h1 := hfirst q hq u hu
    have h2 : u ≤ r.file.vars.sum := List.le_sum_of_mem ((hf.parents q hq).2 u hu).1
    show r.file.vars.sum - u < r.file.vars.sum - q.child
    omega
  intro q hq
  have hv := hf.child q hq
  obtain ⟨q2, hq2, ps, hst, _⟩ := back_pot hf hp hD t1 hv
  refine ⟨q2, hq2, hst.child, fun y hy => ?_⟩
  have hx : Legal r.file.card r.file.vars (fun v => y (renamed r.file base v)) := by
    intro v hv
    rw [← back_card hf hp hD hv]
    exact hy _ (by rw [back_vars hf hp hD]; exact List.mem_map_of_mem hv)
  have hent := back_entry hf hp hD t1 hg hv (by rw [givens_child hf hq]; exact hfirst q hq) hq2 hst.child hy _ (fun j => rfl)
  rw [givens_child hf hq] at hent
  have hj : y (renamed r.file base q.child) < r.file.card q.child := hx _ hv
  obtain ⟨f1, f2, f3⟩ := fullTable_spec hf hp tab t1 hv
  have hrange : ∀ j, j < r.file.card q.child → 0 ≤ (fullTable r.file tab q.child).at' (j :: q.parents.map (fun u => y (renamed r.file base u))) ∧
      (fullTable r.file tab q.child).at' (j :: q.parents.map (fun u => y (renamed r.file base u))) ≤ 1 := by
    intro j hj
    have hin : InRange (fullTable r.file tab q.child).card (j :: q.parents.map (fun u => y (renamed r.file base u))) := by
      rw [f2, givens_child hf hq, List.map_cons]
      exact List.Forall₂.cons hj (inRange_map fun u hu => hx u ((hf.parents q hq).2 u hu).1)
    have hlt := position_lt hin
    rw [← f1.1] at hlt
    unfold Potential.at' cellOf
    rw [List.getD_eq_getElem _ _ hlt]
    exact f3 _ (List.getElem_mem hlt)
  rcases full_columns hf hn (t2 hn hac) hq _ hx with h | ⟨h, hno⟩
  · left
    have hsum := hn q hq _ hx
    obtain ⟨k1, k2⟩ := rounded_column (hcard _ hv)
      (a := fun j => (fullTable r.file tab q.child).at' (j :: q.parents.map (fun u => y (renamed r.file base u))))
      (b := fun j => num.value (fmt ((fullTable r.file tab q.child).at' (j :: q.parents.map (fun u => y (renamed r.file base u))))))
      (fun j hj => (hrange j hj).1) (by
        rw [← hsum]
        exact Finset.sum_congr rfl fun j hj => h j (Finset.mem_range.1 hj))
      (fun j hj => hF.near _ (hrange j hj).1 (hrange j hj).2) hj
    rw [hent, if_neg k1]
    have h2 := h _ hj
    rw [Function.update_eq_self_iff.2 rfl] at h2
    rw [← h2]
    exact k2
  · right
    refine ⟨?_, hno⟩
    have hz : ∀ j, j < r.file.card q.child → num.value (fmt ((fullTable r.file tab q.child).at' (j :: q.parents.map (fun u => y (renamed r.file base u))))) = 0 := by
      intro j hj
      rw [h j hj, hF.zero]
    rw [hent, if_pos (Finset.sum_eq_zero fun j hj => hz j (Finset.mem_range.1 hj)), hz _ hj]

/-- **C71** (partial): if children are declared before their parents, the numbers differ only by rounding, or are zero instead of the number for states of the
parents that cannot occur.  What is missing from `C71_full`, which is false: parents declared before children (C47), states of parents that cannot occur
(C70), and names of states with separators. -/
theorem C71_numbers_partial {num : Numerals K} {fmt : K → List Char} (hF : Formats num fmt) {r : ReadModel K} (hf : r.file.Valid) (hn : r.file.Normalised) (hp : r.Printable)
    (hfirst : ∀ q ∈ r.file.pots, ∀ u ∈ q.parents, q.child < u) (hcard : ∀ v ∈ r.file.vars, r.file.card v ≤ 1000000) {ptr : Nat} {hist : List (Op K)}
    (hh : ∀ op ∈ hist, op.Valid r.file.net) (hm : NetFile.runFile ptr r.file hist = ok r.model) : ComesBack num fmt CloseColumns r := by
  exact comes_back hF hf hp hh hm (close_columns hF hf hn hp hfirst hcard)

/-- the numbers, if all states of parents can occur -/
theorem close_tables {r r2 : ReadModel K} {ρ : Nat → Nat} (ho : ∀ q ∈ r.file.pots, ∀ x, Legal r.file.card r.file.vars x → Occurs r.file q x) (k4 : SameShape ρ r r2)
    (k5 : CloseColumns ρ r.file r2.file) : CloseTables ρ r.file r2.file := by
  intro q hq
  obtain ⟨q2, c1, c2, c3⟩ := k5 q hq
  refine ⟨q2, c1, c2, fun y hy => ?_⟩
  rcases c3 y hy with h | ⟨_, h⟩
  · exact h
  · refine absurd (ho q hq _ fun v hv => ?_) h
    rw [← k4.card v hv]
    exact hy _ (by rw [k4.vars]; exact List.mem_map_of_mem hv)

/-- **C71** (partial) for networks where also all states of parents can occur: the conclusion of `C71_full`.  What is missing: other networks. -/
theorem C71_same_partial {num : Numerals K} {fmt : K → List Char} (hF : Formats num fmt) {r : ReadModel K} (hf : r.file.Valid) (hn : r.file.Normalised) (hp : r.Printable)
    (hfirst : ∀ q ∈ r.file.pots, ∀ u ∈ q.parents, q.child < u) (hcard : ∀ v ∈ r.file.vars, r.file.card v ≤ 1000000)
    (ho : ∀ q ∈ r.file.pots, ∀ x, Legal r.file.card r.file.vars x → Occurs r.file q x) {ptr : Nat} {hist : List (Op K)}
    (hh : ∀ op ∈ hist, op.Valid r.file.net) (hm : NetFile.runFile ptr r.file hist = ok r.model) : ComesBack num fmt CloseTables r := by
  obtain ⟨out, m2, h1, h2, h3⟩ := C71_numbers_partial hF hf hn hp hfirst hcard hh hm
  refine ⟨out, m2, h1, h2, fun ptr' s hr hg => ?_⟩
  obtain ⟨r2, e, ρ, k1, k2, k3, k4, k5⟩ := h3 ptr' s hr hg
  exact ⟨r2, e, ρ, k1, k2, k3, k4, close_tables ho k4 k5⟩

/-- `%f` for a rational number: rounded to six decimals -/
def sixDecimals (a : ℚ) : List Char :=
  let n := (a * 1000000 + 1 / 2).floor.toNat
  printNat (n / 1000000) ++ '.' :: [100000, 10000, 1000, 100, 10, 1].map (fun k => (n / k % 10).digitChar)

/-- `strtod` and the conversion to `int` for digits with or without a point -/
def decimalNum : Numerals ℚ where
  value := fun w => (Nat.ofDigitChars 10 (w.filter (fun c => c != '.')) 0 : ℚ) / 10 ^ (w.dropWhile (fun c => c != '.')).tail.length
  int := fun w => if Nat.ofDigitChars 10 (w.takeWhile (fun c => c != '.')) 0 < 2147483648 then some (Nat.ofDigitChars 10 (w.takeWhile (fun c => c != '.')) 0) else none

theorem sixDecimals_value (a : ℚ) : decimalNum.value (sixDecimals a) = ((a * 1000000 + 1 / 2).floor.toNat : ℚ) / 1000000 := by
  unfold decimalNum sixDecimals
  simp only
  generalize (a * 1000000 + 1 / 2).floor.toNat = n
  have hd : ∀ c ∈ printNat (n / 1000000), (c != '.') = true := by
    intro c hc
    have := Nat.isDigit_of_mem_toDigits (b := 10) (by decide) (by decide) hc
    rw [bne_iff_ne]
    rintro rfl
    exact absurd this (by decide)
  have hk : ∀ k, k < 10 → (k.digitChar != '.') = true := by decide
  have hk' : ∀ i, ((n / i % 10).digitChar != '.') = true := fun i => hk _ (Nat.mod_lt _ (by decide))
  rw [List.filter_append, List.filter_eq_self.2 hd, List.filter_cons_of_neg (by decide), List.dropWhile_append_of_pos hd]
  rw [List.filter_eq_self.2 (by
    intro c hc
    obtain ⟨i, _, rfl⟩ := List.mem_map.1 hc
    exact hk' i)]
  rw [List.dropWhile_cons_of_neg (by decide), List.tail_cons, List.length_map, Nat.ofDigitChars_append]
  rw [show printNat (n / 1000000) = Nat.toDigits 10 (n / 1000000) from rfl, Nat.ofDigitChars_ten_toDigits]
  have hm : ∀ i, n / i % 10 < 10 := fun i => Nat.mod_lt _ (by decide)
  simp only [List.map_cons, List.map_nil, Nat.ofDigitChars_cons_digitChar_of_lt_ten (hm _), Nat.ofDigitChars_nil, List.length_cons, List.length_nil]
  have : 10 * (10 * (10 * (10 * (10 * (10 * (n / 1000000) + n / 100000 % 10) + n / 10000 % 10) + n / 1000 % 10) + n / 100 % 10) + n / 10 % 10) + n / 1 % 10 = n := by omega
  rw [this]
  norm_num

theorem decimals_formats : Formats decimalNum sixDecimals := by
  have hfl : ∀ a : ℚ, 0 ≤ a → (((a * 1000000 + 1 / 2).floor.toNat : ℕ) : ℚ) = ((⌊a * 1000000 + 1 / 2⌋ : ℤ) : ℚ) := by
    intro a ha
    have h0 : 0 ≤ ⌊a * 1000000 + 1 / 2⌋ := Int.floor_nonneg.2 (by positivity)
    have : (((⌊a * 1000000 + 1 / 2⌋).toNat : ℤ) : ℚ) = ((⌊a * 1000000 + 1 / 2⌋ : ℤ) : ℚ) := by rw [Int.toNat_of_nonneg h0]
    exact_mod_cast this
  refine ⟨?_, ?_, ?_, ?_, ?_⟩
  · intro a h0 h1
    constructor
    · refine ⟨[], printNat ((a * 1000000 + 1 / 2).floor.toNat / 1000000),
        '.' :: [100000, 10000, 1000, 100, 10, 1].map (fun k => ((a * 1000000 + 1 / 2).floor.toNat / k % 10).digitChar), [], by rw [List.append_nil, List.nil_append]; rfl,
        Or.inl rfl, ?_, Or.inr ⟨_, rfl, ?_, Or.inl Nat.toDigits_ne_nil⟩, Or.inl rfl⟩
      · intro c hc
        exact Nat.isDigit_of_mem_toDigits (by decide) (by decide) hc
      · intro c hc
        obtain ⟨i, _, rfl⟩ := List.mem_map.1 hc
        have : ∀ k, k < 10 → k.digitChar.isDigit = true := by decide
        exact this _ (Nat.mod_lt _ (by decide))
    · have hn : (a * 1000000 + 1 / 2).floor.toNat ≤ 1000001 := by
        have h2 : ⌊a * 1000000 + 1 / 2⌋ ≤ 1000001 := by
          have := Int.floor_le (a * 1000000 + 1 / 2)
          have h3 : ((⌊a * 1000000 + 1 / 2⌋ : ℤ) : ℚ) ≤ 1000001 := by linarith
          exact_mod_cast h3
        have : (a * 1000000 + 1 / 2).floor = ⌊a * 1000000 + 1 / 2⌋ := rfl
        omega
      unfold sixDecimals
      simp only [List.length_append, List.length_cons, List.length_map, List.length_nil]
      have := printNat_short (n := (a * 1000000 + 1 / 2).floor.toNat / 1000000) (by omega)
      omega
  · intro a h0 h1
    rw [sixDecimals_value, hfl a h0, abs_le]
    have h2 := Int.floor_le (a * 1000000 + 1 / 2)
    have h3 := Int.lt_floor_add_one (a * 1000000 + 1 / 2)
    constructor <;> linarith
  · intro a h0 h1
    rw [sixDecimals_value]
    positivity
  · decide +kernel
  · intro n hn
    have hd : ∀ c ∈ printNat n, (c != '.') = true := by
      intro c hc
      have := Nat.isDigit_of_mem_toDigits (b := 10) (by decide) (by decide) hc
      rw [bne_iff_ne]
      rintro rfl
      exact absurd this (by decide)
    have ht : (printNat n).takeWhile (fun c => c != '.') = printNat n := by
      have := List.takeWhile_append_of_pos (l₂ := []) hd
      simpa using this
    unfold decimalNum
    simp only [ht]
    rw [show printNat n = Nat.toDigits 10 n from rfl, Nat.ofDigitChars_ten_toDigits, if_pos hn]

/-- the texts of a variable with two states -/
def twoStates (id : Nat) (name x y : String) : NodeRec := ⟨id, name.toList, "l".toList, [x.toList, y.toList], 10, 20⟩

/-- a model with these texts -/
def asRead (m : Model ℚ) (f : NetFile ℚ) (nodes : List NodeRec) : ReadModel ℚ := { model := m, file := f, nodes := nodes, sizeX := 80, sizeY := 60 }

/-- names and numbers of states that can be printed, as a test -/
def plainNode (n : NodeRec) : Bool :=
  plainLexeme (.name n.symbol) && decide (n.symbol.length ≤ 40) && plainLexeme (.text n.label) && decide (n.label.length ≤ 40) && !n.states.isEmpty &&
    n.states.all (fun w => plainLexeme (.text w) && decide (w.length ≤ 40)) && decide (n.posX < 2147483648) && decide (n.posY < 2147483648)

theorem plain_readable {n : NodeRec} (h : plainNode n = true) : n.Readable := by
  simp only [plainNode, Bool.and_eq_true, decide_eq_true_eq, List.all_eq_true, Bool.not_eq_true', List.isEmpty_eq_false_iff] at h
  obtain ⟨⟨⟨⟨⟨⟨⟨h1, h2⟩, h3⟩, h4⟩, h5⟩, h6⟩, h7⟩, h8⟩ := h
  refine ⟨(plain_legal h1).1, h2, (plain_legal h3).1, h4, h5, fun w hw => ⟨(plain_legal (h6 w hw).1).1, ?_⟩, fun w hw => (h6 w hw).2, h7, h8⟩
  have := (plain_legal (h6 w hw).1).2.1
  simpa [Lexeme.hides] using this

theorem printable_texts {r : ReadModel K} (hp : r.Printable) : Texts r :=
  ⟨hp.ids, fun n hn => ⟨(hp.readable n hn).name, (hp.readable n hn).nameShort⟩, fun n hn => ⟨(hp.readable n hn).label, (hp.readable n hn).labelShort⟩,
    fun n hn w hw => ⟨((hp.readable n hn).states w hw).1, (hp.readable n hn).statesShort w hw⟩, fun n hn => ⟨(hp.readable n hn).posX, (hp.readable n hn).posY⟩,
    hp.names, hp.states, hp.next, ⟨hp.sizeX, hp.sizeY⟩, hp.few⟩

/-- variable 1 with parent 2 -/
def early : NetFile ℚ :=
  { vars := [1, 2], card := fun _ => 2, next := fun _ => none
    pots := [{ child := 1, parents := [2], table := { card := [2, 2], data := [1 / 3, 2 / 3, 1 / 7, 6 / 7] } },
      { child := 2, parents := [], table := { card := [2], data := [1 / 2, 1 / 2] } }] }

theorem early_valid : early.Valid where
  sorted := by decide
  ids := by decide
  states := fun _ _ => Nat.zero_lt_two
  tables := by simp [early]
  child := by decide +kernel
  parents := by decide +kernel
  distinct := by decide +kernel
  shape := by decide +kernel
  nonneg := by decide +kernel

theorem early_normalised : early.Normalised := by
  intro q hq x hx
  have h2 : x 2 < 2 := hx 2 (by decide)
  simp only [early, List.mem_cons, List.not_mem_nil, or_false] at hq
  rcases hq with rfl | rfl
  · have : ∀ b, b < 2 → ∑ j ∈ Finset.range 2, (⟨[2, 2], [1 / 3, 2 / 3, 1 / 7, 6 / 7]⟩ : Potential ℚ).at' [j, b] = 1 := by decide +kernel
    exact this (x 2) h2
  · have : ∑ j ∈ Finset.range 2, (⟨[2], [1 / 2, 1 / 2]⟩ : Potential ℚ).at' [j] = 1 := by decide +kernel
    exact this

theorem early_occurs : ∀ q ∈ early.pots, ∀ x, Legal early.card early.vars x → Occurs early q x := by
  intro q _ x hx
  refine ⟨x, hx, fun _ _ => rfl, ?_⟩
  have h : ∀ a, a < 2 → ∀ b, b < 2 → early.net.tables (fun v => if v = 1 then a else b) ≠ 0 := by decide +kernel
  rw [(net_local early_valid).tables x (fun v => if v = 1 then x 1 else x 2) ?_]
  · exact h _ (hx 1 (by decide)) _ (hx 2 (by decide))
  · intro v hv
    have hv : v ∈ [1, 2] := hv
    simp only [List.mem_cons, List.not_mem_nil, or_false] at hv
    rcases hv with rfl | rfl <;> simp

theorem early_printable (m : Model ℚ) : (asRead m early [twoStates 1 "A" "x" "y", twoStates 2 "B" "x" "y"]).Printable where
  ids := rfl
  readable := by
    have : ∀ n ∈ [twoStates 1 "A" "x" "y", twoStates 2 "B" "x" "y"], plainNode n = true := by decide +kernel
    exact fun n hn => plain_readable (this n hn)
  names := by show ["A".toList, "B".toList].Nodup; decide
  states := by
    intro n hn
    simp only [asRead, List.mem_cons, List.not_mem_nil, or_false] at hn
    rcases hn with rfl | rfl <;> rfl
  next := by intro v _ u hu; cases hu
  sizeX := by show 80 < 2147483648; decide
  sizeY := by show 60 < 2147483648; decide
  few := by show ∀ q ∈ early.pots, _; decide +kernel
  priors := by show ∀ q ∈ early.pots, _; decide +kernel

/-- The hypotheses of the partial theorems are met, with numbers that are rounded. -/
example : ∃ m, NetFile.runFile 8 early [.priors false, .observe 2 1] = ok m ∧
    ComesBack decimalNum sixDecimals CloseTables (asRead m early [twoStates 1 "A" "x" "y", twoStates 2 "B" "x" "y"]) := by
  have hh : ∀ op ∈ [Op.priors false, .observe 2 1], op.Valid early.net := by
    intro op hop
    simp only [List.mem_cons, List.not_mem_nil, or_false] at hop
    rcases hop with rfl | rfl
    · trivial
    · show 2 ∈ early.vars; decide
  obtain ⟨m, hm, _⟩ := runFile_spec 8 early_valid hh
  exact ⟨m, hm, C71_same_partial decimals_formats early_valid early_normalised (early_printable m) (by show ∀ q ∈ early.pots, _; decide +kernel) (fun _ _ => by show 2 ≤ 1000000; decide)
    early_occurs hh hm⟩

/-- writing and reading, and what is read: variables and tables -/
def again (f : NetFile ℚ) (nodes : List NodeRec) : Res (Option (List Nat × List (Nat × List Nat × List Nat × List ℚ))) := do
  let m ← NetFile.runFile 8 f []
  let (out, _) ← writeModel sixDecimals (asRead m f nodes)
  let (r2, _) ← parseModel decimalNum 8 Session.initial out
  ok (r2.map (fun r2 => (r2.file.vars, r2.file.pots.map (fun q => (q.child, q.parents, q.table.card, q.table.data)))))

theorem again_eq {f : NetFile ℚ} {nodes : List NodeRec} {m : Model ℚ} (hm : NetFile.runFile 8 f [] = ok m) {x : Option (List Nat × List (Nat × List Nat × List Nat × List ℚ))}
    (hx : again f nodes = ok x) {Good : (Nat → Nat) → NetFile ℚ → NetFile ℚ → Prop} (h : ComesBack decimalNum sixDecimals Good (asRead m f nodes)) :
    ∃ r2 ρ, x = some (r2.file.vars, r2.file.pots.map (fun q => (q.child, q.parents, q.table.card, q.table.data))) ∧ SameShape ρ (asRead m f nodes) r2 ∧ Good ρ f r2.file := by
  obtain ⟨out, m2, h1, _, h3⟩ := h
  obtain ⟨r2, e, ρ, k1, _, _, k4, k5⟩ := h3 8 Session.initial rfl Statics.initial_fresh
  refine ⟨r2, ρ, ?_, k4, k5⟩
  unfold again at hx
  rw [hm, ok_bind, h1, ok_bind] at hx
  simp only at hx
  rw [k1, ok_bind] at hx
  cases hx
  rfl

/-- variable 2 with parent 1 -/
def late : NetFile ℚ :=
  { vars := [1, 2], card := fun _ => 2, next := fun _ => none
    pots := [{ child := 2, parents := [1], table := { card := [2, 2], data := [9 / 10, 1 / 5, 1 / 10, 4 / 5] } },
      { child := 1, parents := [], table := { card := [2], data := [1 / 2, 1 / 2] } }] }

theorem late_valid : late.Valid where
  sorted := by decide
  ids := by decide
  states := fun _ _ => Nat.zero_lt_two
  tables := by simp [late]
  child := by decide +kernel
  parents := by decide +kernel
  distinct := by decide +kernel
  shape := by decide +kernel
  nonneg := by decide +kernel

theorem late_normalised : late.Normalised := by
  intro q hq x hx
  have h1 : x 1 < 2 := hx 1 (by decide)
  simp only [late, List.mem_cons, List.not_mem_nil, or_false] at hq
  rcases hq with rfl | rfl
  · have : ∀ a, a < 2 → ∑ j ∈ Finset.range 2, (⟨[2, 2], [9 / 10, 1 / 5, 1 / 10, 4 / 5]⟩ : Potential ℚ).at' [a, j] = 1 := by decide +kernel
    exact this (x 1) h1
  · have : ∑ j ∈ Finset.range 2, (⟨[2], [1 / 2, 1 / 2]⟩ : Potential ℚ).at' [j] = 1 := by decide +kernel
    exact this

theorem late_texts (m : Model ℚ) : Texts (asRead m late [twoStates 1 "A" "x" "y", twoStates 2 "B" "x" "y"]) := by
  have h := printable_texts (early_printable m)
  exact ⟨h.ids, h.symbols, h.labels, h.stateNames, h.positions, h.names, h.states, h.next, h.sizes, by show ∀ q ∈ late.pots, _; decide +kernel⟩

/-- **C71** is false for a variable declared after its parent, although the shape comes back: 9/10 is written and 9/11 is read. -/
theorem C71_order_refuted (m : Model ℚ) (hm : NetFile.runFile 8 late [] = ok m) :
    ¬ ComesBack decimalNum sixDecimals CloseTables (asRead m late [twoStates 1 "A" "x" "y", twoStates 2 "B" "x" "y"]) := by
  intro h
  have hx : again late [twoStates 1 "A" "x" "y", twoStates 2 "B" "x" "y"] =
      ok (some ([1, 2], [(1, [], [2], [1 / 2, 1 / 2]), (2, [1], [2, 2], [9 / 11, 2 / 11, 1 / 9, 8 / 9])])) := by decide +kernel
  obtain ⟨r2, ρ, k1, k2, k3⟩ := again_eq hm hx h
  simp only [Option.some.injEq, Prod.mk.injEq] at k1
  obtain ⟨v1, v2⟩ := k1
  have hvars : [1, 2] = [ρ 1, ρ 2] := v1.trans k2.vars
  simp only [List.cons.injEq, and_true] at hvars
  obtain ⟨q2, c1, c2, c3⟩ := k3 { child := 2, parents := [1], table := { card := [2, 2], data := [9 / 10, 1 / 5, 1 / 10, 4 / 5] } } (by simp [late])
  have hmem := List.mem_map_of_mem (f := fun q : Parsed ℚ => (q.child, q.parents, q.table.card, q.table.data)) c1
  rw [← v2] at hmem
  simp only [List.mem_cons, List.not_mem_nil, or_false, Prod.mk.injEq] at hmem
  rcases hmem with ⟨d1, _⟩ | ⟨d1, d2, d3, d4⟩
  · rw [d1, ← hvars.2] at c2
    cases c2
  · have hcard : ∀ v ∈ r2.file.vars, r2.file.card v = 2 := by
      intro v hv
      rw [k2.vars] at hv
      obtain ⟨u, hu, rfl⟩ := List.mem_map.1 hv
      exact k2.card u hu
    have h0 := c3 (fun _ => 0) (fun v hv => by rw [hcard v hv]; show 0 < 2; decide)
    have e1 : r2.file.entry q2 (fun _ => 0) = 9 / 11 := by
      unfold NetFile.entry NetFile.family
      rw [d1, d2, ← v1]
      unfold Potential.at'
      rw [d3, d4]
      decide +kernel
    have e2 : late.entry { child := 2, parents := [1], table := { card := [2, 2], data := [9 / 10, 1 / 5, 1 / 10, 4 / 5] } } (fun v => (fun _ => 0) (ρ v)) = 9 / 10 := by
      show late.entry _ (fun _ => 0) = _
      decide +kernel
    rw [e1, e2] at h0
    revert h0
    show ¬ |(9 / 11 : ℚ) - 9 / 10| ≤ ((2 : ℕ) : ℚ) / 1000000
    rw [abs_of_neg (by norm_num)]
    norm_num

/-- **C71** is false: `C71_order_refuted`. -/
theorem C71_refuted : ¬ C71_full ℚ := by
  intro h
  obtain ⟨m, hm, _⟩ := runFile_spec 8 late_valid (ops := []) (by simp)
  exact C71_order_refuted m hm (h decimalNum sixDecimals _ 8 [] decimals_formats late_valid late_normalised ⟨fun v => v, by show ∀ q ∈ late.pots, _; decide +kernel⟩ (late_texts m)
    (fun _ _ => by show 2 ≤ 1000000; decide) (by simp) hm)

/-- **C71** is false for the name `y;` of a state: the file that is written is refused by `parse_model`. -/
theorem C71_separator_refuted (m : Model ℚ) (hm : NetFile.runFile 8 early [] = ok m) :
    Texts (asRead m early [twoStates 1 "A" "x" "y;", twoStates 2 "B" "x" "y"]) ∧
      ¬ ComesBack decimalNum sixDecimals (fun _ _ _ => True) (asRead m early [twoStates 1 "A" "x" "y;", twoStates 2 "B" "x" "y"]) := by
  constructor
  · have h := printable_texts (early_printable m)
    refine ⟨h.ids, ?_, ?_, ?_, ?_, h.names, ?_, h.next, h.sizes, h.few⟩
    · intro n hn
      simp only [asRead, List.mem_cons, List.not_mem_nil, or_false] at hn
      rcases hn with rfl | rfl
      exacts [h.symbols (twoStates 1 "A" "x" "y") (List.mem_cons_self ..), h.symbols (twoStates 2 "B" "x" "y") (List.mem_cons_of_mem _ (List.mem_cons_self ..))]
    · show ∀ n ∈ [twoStates 1 "A" "x" "y;", twoStates 2 "B" "x" "y"], _
      decide +kernel
    · show ∀ n ∈ [twoStates 1 "A" "x" "y;", twoStates 2 "B" "x" "y"], _
      decide +kernel
    · show ∀ n ∈ [twoStates 1 "A" "x" "y;", twoStates 2 "B" "x" "y"], _
      decide +kernel
    · intro n hn
      simp only [asRead, List.mem_cons, List.not_mem_nil, or_false] at hn
      rcases hn with rfl | rfl <;> rfl
  · intro h
    have hx : again early [twoStates 1 "A" "x" "y;", twoStates 2 "B" "x" "y"] = ok none := by decide +kernel
    obtain ⟨r2, ρ, k1, _⟩ := again_eq hm hx h
    cases k1

/-- **C71** is false for states of the parents that cannot occur (C70): 1/4 becomes zero. -/
theorem C71_impossible_refuted (m : Model ℚ) (hm : NetFile.runFile 8 lame [] = ok m) :
    ¬ ComesBack decimalNum sixDecimals CloseTables (asRead m lame [twoStates 1 "A" "x" "y", twoStates 2 "B" "x" "y", twoStates 3 "C" "x" "y"]) := by
  intro h
  have hx : again lame [twoStates 1 "A" "x" "y", twoStates 2 "B" "x" "y", twoStates 3 "C" "x" "y"] =
      ok (some ([1, 2, 3], [(3, [], [2], [1 / 2, 1 / 2]), (1, [2, 3], [2, 2, 2], [1 / 2, 1 / 2, 0, 0, 333333 / 1000000, 666667 / 1000000, 0, 0]),
        (2, [3], [2, 2], [1, 0, 1, 0])])) := by decide +kernel
  obtain ⟨r2, ρ, k1, k2, k3⟩ := again_eq hm hx h
  simp only [Option.some.injEq, Prod.mk.injEq] at k1
  obtain ⟨v1, v2⟩ := k1
  have hvars : [1, 2, 3] = [ρ 1, ρ 2, ρ 3] := v1.trans k2.vars
  simp only [List.cons.injEq, and_true] at hvars
  obtain ⟨r1, r2', r3⟩ := hvars
  obtain ⟨q2, c1, c2, c3⟩ := k3 { child := 1, parents := [2, 3], table := { card := [2, 2, 2], data := [1 / 2, 1 / 2, 1 / 4, 3 / 4, 1 / 3, 2 / 3, 1 / 5, 4 / 5] } } (by simp [lame])
  have hmem := List.mem_map_of_mem (f := fun q : Parsed ℚ => (q.child, q.parents, q.table.card, q.table.data)) c1
  rw [← v2] at hmem
  simp only [List.mem_cons, List.not_mem_nil, or_false, Prod.mk.injEq] at hmem
  have c2 : q2.child = 1 := c2.trans r1.symm
  rcases hmem with ⟨d1, _⟩ | ⟨d1, d2, d3, d4⟩ | ⟨d1, _⟩
  · omega
  · have hcard : ∀ v ∈ r2.file.vars, r2.file.card v = 2 := by
      intro v hv
      rw [k2.vars] at hv
      obtain ⟨u, hu, rfl⟩ := List.mem_map.1 hv
      exact k2.card u hu
    have h0 := c3 (fun v => if v = 2 then 1 else 0) (fun v hv => by rw [hcard v hv]; show (if v = 2 then 1 else 0) < 2; split <;> decide)
    have e1 : r2.file.entry q2 (fun v => if v = 2 then 1 else 0) = 0 := by
      unfold NetFile.entry NetFile.family
      rw [d1, d2, ← v1]
      unfold Potential.at'
      rw [d3, d4]
      decide +kernel
    have e2 : lame.entry { child := 1, parents := [2, 3], table := { card := [2, 2, 2], data := [1 / 2, 1 / 2, 1 / 4, 3 / 4, 1 / 3, 2 / 3, 1 / 5, 4 / 5] } }
        (fun v => (fun v => if v = 2 then 1 else 0) (ρ v)) = 1 / 4 := by
      rw [entry_family lame_valid (y := fun v => if v = 2 then 1 else 0) (by simp [lame]) ?_]
      · decide +kernel
      · intro u hu
        simp only [List.mem_cons, List.not_mem_nil, or_false] at hu
        rcases hu with rfl | rfl | rfl
        · rw [← r1]
        · rw [← r2']
        · rw [← r3]
    rw [e1, e2] at h0
    revert h0
    show ¬ |(0 : ℚ) - 1 / 4| ≤ ((2 : ℕ) : ℚ) / 1000000
    rw [abs_of_neg (by norm_num)]
    norm_num
  · omega

end Props

end Nip
