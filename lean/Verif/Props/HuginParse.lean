import Verif.HuginInput
import Verif.HuginKeep
import Verif.Props.HuginLex

/-!
# C68: reading a network file, C69: reading several files
-/

namespace Nip.Props

open Res Spec Parse

variable {K : Type} [Field K] [LinearOrder K]

/-- The variable has the texts of the node (a node without label has a blank) and its position. -/
structure SameTexts (num : Numerals K) (n : NodeText) (r : NodeRec) : Prop where
  symbol : r.symbol = n.name
  label : r.label = n.label.getD " ".toList
  states : r.states = n.states
  position : ∀ p, n.position = some p → num.int p.1 = some r.posX ∧ num.int p.2 = some r.posY

/-- Reading the file gives the network described, if nothing is left from earlier files: variables, states, links and tables (scaled, see `Stored`), a
model built from them, the texts, and the size of nodes that is given last. -/
def Gives (num : Numerals K) (d : NetText) (file : List Char) : Prop :=
  ∀ (ptr : Nat) (s : Session K), s.lex.readLine = true → s.g.Fresh →
    ∃ r e, parseModel num ptr s file = ok (some r, e) ∧ r.file.Valid ∧ d.Describes num.value s.g.nextId r.file ∧ NetFile.build ptr r.file = ok (some r.model) ∧
      r.nodes.map (fun v => v.id) = r.file.vars ∧ List.Forall₂ (SameTexts num) d.nodes r.nodes ∧
      ∀ x y, sizeGiven d.frame.fields = some (x, y) → num.int x = some r.sizeX ∧ num.int y = some r.sizeY

/-- Numbers that make a conditional distribution of the child are the numbers of the table. -/
def AsWritten (num : Numerals K) (d : NetText) (base : Nat) (f : NetFile K) : Prop :=
  List.Forall₂ (fun p q => ∀ g, p.data = some g →
    ProperTable f.card (base + d.place p.child) ((p.parents.getD []).map (fun w => base + d.place w)) (g.words.map num.value) →
    ∀ x, Combination f.card ((base + d.place p.child) :: (p.parents.getD []).map (fun w => base + d.place w)) x →
      f.entry q x = written f.card (base + d.place p.child) ((p.parents.getD []).map (fun w => base + d.place w)) (g.words.map num.value) x) d.pots f.pots

/-- Reading the file gives tables with the numbers written. -/
def GivesNumbers (num : Numerals K) (d : NetText) (file : List Char) : Prop :=
  ∀ (ptr : Nat) (s : Session K), s.lex.readLine = true → s.g.Fresh →
    ∃ r e, parseModel num ptr s file = ok (some r, e) ∧ AsWritten num d s.g.nextId r.file

/-- The file is the description, laid out in any way that the lexical analyser understands (C67). -/
def LaidOut (d : NetText) (file : List Char) : Prop := ∃ ls : List Line, (∀ l ∈ ls, l.Legal) ∧ fileLexemes ls = d.lexemes ∧ file = fileText ls

variable (K) in
/-- **C68** in full: every description that makes sense. -/
def C68_full : Prop := ∀ (num : Numerals K) (d : NetText) (file : List Char), d.Sensible num.value num.int → LaidOut d file → Gives num d file ∧ GivesNumbers num d file

/-- No text is longer than 40 characters. -/
structure ShortTexts (d : NetText) : Prop where
  names : ∀ n ∈ d.nodes, n.name.length ≤ 40
  labels : ∀ n ∈ d.nodes, ∀ w, n.label = some w → w.length ≤ 40
  states : ∀ n ∈ d.nodes, ∀ w ∈ n.states, w.length ≤ 40

/-- A node after a labelled one has a label. -/
def LabelsLast (d : NetText) : Prop := d.nodes.Pairwise (fun a b => a.label ≠ none → b.label ≠ none)

/-- what `parse_model` does with a description -/
theorem parse_sizes [IsStrictOrderedRing K] {num : Numerals K} {d : NetText} {file : List Char} (hd : d.Sensible num.value num.int) (hf : LaidOut d file) (hs : ∀ n ∈ d.nodes, n.name.length ≤ 40)
    (hp : d.pots ≠ []) (hl : LabelsLast d) (ptr : Nat) (s : Session K) (hr : s.lex.readLine = true) (hg : s.g.Fresh) :
    ∃ m l a b e, NetFile.build ptr (NetText.file d num s.g.nextId l) = ok (some m) ∧ (NetText.file d num s.g.nextId l).Valid ∧
      d.Describes num.value s.g.nextId (NetText.file d num s.g.nextId l) ∧ e.readLine = true ∧ (a, b) = sizesAfter num d.frame.fields (s.g.sizeX, s.g.sizeY) ∧
      parseModel num ptr s file = ok (some { model := m, file := NetText.file d num s.g.nextId l, nodes := recsFrom num s.g.nextId d.nodes, sizeX := a, sizeY := b },
        { lex := e, g := { afterInput num s.g d.nodes a b with vars := .freed } }) := by
  obtain ⟨ls, h1, h2, rfl⟩ := hf
  obtain ⟨e, he, he'⟩ := lexFile_legal h1 s.lex hr
  rw [h2] at he
  obtain ⟨m, l, a, b, hb, hV, hD, hab, hi⟩ := input_eq ptr hd hs hp hl hg (fuel := d.lexemes.length + 1) (by omega)
  refine ⟨m, l, a, b, e, hb, hV, hD, he', hab, ?_⟩
  unfold parseModel
  rw [he]
  simp only [ok_bind]
  rw [hi]
  rfl

theorem parse_eq [IsStrictOrderedRing K] {num : Numerals K} {d : NetText} {file : List Char} (hd : d.Sensible num.value num.int) (hf : LaidOut d file) (hs : ∀ n ∈ d.nodes, n.name.length ≤ 40)
    (hp : d.pots ≠ []) (hl : LabelsLast d) (ptr : Nat) (s : Session K) (hr : s.lex.readLine = true) (hg : s.g.Fresh) :
    ∃ m l a b e, NetFile.build ptr (NetText.file d num s.g.nextId l) = ok (some m) ∧ (NetText.file d num s.g.nextId l).Valid ∧
      d.Describes num.value s.g.nextId (NetText.file d num s.g.nextId l) ∧ e.readLine = true ∧
      parseModel num ptr s file = ok (some { model := m, file := NetText.file d num s.g.nextId l, nodes := recsFrom num s.g.nextId d.nodes, sizeX := a, sizeY := b },
        { lex := e, g := { afterInput num s.g d.nodes a b with vars := .freed } }) := by
  obtain ⟨m, l, a, b, e, h1, h2, h3, h4, _, h5⟩ := parse_sizes hd hf hs hp hl ptr s hr hg
  exact ⟨m, l, a, b, e, h1, h2, h3, h4, h5⟩

/-- if reading the lexemes is undefined -/
theorem parse_ub {num : Numerals K} {d : NetText} {file : List Char} (hf : LaidOut d file) (ptr : Nat) (s : Session K) (hr : s.lex.readLine = true)
    (h : input num ptr (d.lexemes.length + 1) ⟨s.g, d.lexemes⟩ = ub) : parseModel num ptr s file = ub := by
  obtain ⟨ls, h1, h2, rfl⟩ := hf
  obtain ⟨e, he, _⟩ := lexFile_legal h1 s.lex hr
  rw [h2] at he
  unfold parseModel
  rw [he]
  simp only [ok_bind]
  rw [h]
  rfl

theorem texts_recs {num : Numerals K} (ns : List NodeText) : ∀ i, (∀ n ∈ ns, n.Sensible num.int) → (∀ n ∈ ns, n.name.length ≤ 40) →
    (∀ n ∈ ns, ∀ w, n.label = some w → w.length ≤ 40) → (∀ n ∈ ns, ∀ w ∈ n.states, w.length ≤ 40) → List.Forall₂ (SameTexts num) ns (recsFrom num i ns) := by
  induction ns with
  | nil => intro i _ _ _ _; exact List.Forall₂.nil
  | cons n ns ih =>
    intro i h1 h2 h3 h4
    refine List.Forall₂.cons ?_ (ih (i + 1) (fun k hk => h1 k (by simp [hk])) (fun k hk => h2 k (by simp [hk])) (fun k hk => h3 k (by simp [hk])) (fun k hk => h4 k (by simp [hk])))
    refine ⟨cutText_short (h2 n (by simp)), ?_, ?_, ?_⟩
    · show cutText (n.label.getD " ".toList) = _
      refine cutText_short ?_
      cases hq : n.label with
      | none => simp
      | some w => exact h3 n (by simp) w hq
    · show n.states.map cutText = _
      conv_rhs => rw [← List.map_id n.states]
      exact List.map_congr_left (fun w hw => cutText_short (h4 n (by simp) w hw))
    · intro p hp
      obtain ⟨h5, h6⟩ := (h1 n (by simp)).position p hp
      obtain ⟨x, hx⟩ := Option.isSome_iff_exists.1 h5
      obtain ⟨y, hy⟩ := Option.isSome_iff_exists.1 h6
      simp [nodeRec, hp, hx, hy]

/-- **C68** (partial).  What is missing from `C68_full`, which is false: texts of more than 40 characters, files without potentials, nodes without label
after nodes with one, and the numbers of tables of children declared after a parent (C47). -/
theorem C68_reads_partial [IsStrictOrderedRing K] {num : Numerals K} {d : NetText} {file : List Char} (hd : d.Sensible num.value num.int) (hf : LaidOut d file)
    (hs : ShortTexts d) (hp : d.pots ≠ []) (hl : LabelsLast d) : Gives num d file := by
  intro ptr s hr hg
  obtain ⟨m, l, a, b, e, hb, hV, hD, _, hab, h⟩ := parse_sizes hd hf hs.names hp hl ptr s hr hg
  refine ⟨_, _, h, hV, hD, hb, recs_ids num d.nodes s.g.nextId, texts_recs d.nodes s.g.nextId hd.nodes hs.names hs.labels hs.states, fun x y hxy => ?_⟩
  have hm : NetField.size x y ∈ d.frame.fields := by
    obtain ⟨f, f1, f2⟩ := List.mem_filterMap.1 (List.mem_of_getLast? hxy)
    cases f with
    | size x' y' => cases f2; exact f1
    | other n v => cases f2
  obtain ⟨h1, h2⟩ := hd.sizes x y hm
  obtain ⟨a', ha⟩ := Option.isSome_iff_exists.1 h1
  obtain ⟨b', hb⟩ := Option.isSome_iff_exists.1 h2
  unfold sizesAfter at hab
  rw [hxy] at hab
  simp only [Option.map_some, Option.getD_some, ha, hb, Prod.mk.injEq] at hab
  exact ⟨by rw [ha, hab.1], by rw [hb, hab.2]⟩

theorem as_written [IsStrictOrderedRing K] {num : Numerals K} {d : NetText} {base : Nat} {f : NetFile K} (hV : f.Valid) (hD : d.Describes num.value base f)
    (hc : ∀ p ∈ d.pots, ∀ w ∈ p.parents.getD [], d.place p.child < d.place w) : AsWritten num d base f := by
  have h := hD.pots
  unfold AsWritten
  rw [List.forall₂_iff_get] at h ⊢
  refine ⟨h.1, fun i hi hj => ?_⟩
  have hst := h.2 i hi hj
  have hq : f.pots.get ⟨i, hj⟩ ∈ f.pots := List.get_mem _ _
  have hp : d.pots.get ⟨i, hi⟩ ∈ d.pots := List.get_mem _ _
  generalize d.pots.get ⟨i, hi⟩ = p at hst hp ⊢
  generalize f.pots.get ⟨i, hj⟩ = q at hst hq ⊢
  intro g hg hprop x hx
  have hmap : (p.parents.map (fun l => l.map (fun w => base + d.place w))).getD [] = (p.parents.getD []).map (fun w => base + d.place w) := by
    cases p.parents <;> rfl
  have hfam : ∃ s, f.family q = (base + d.place p.child) :: s := by
    have hc1 : q.child ∈ f.family q := List.mem_filter.2 ⟨hV.child q hq, by simp⟩
    cases hfm : f.family q with
    | nil => rw [hfm] at hc1; cases hc1
    | cons v s =>
      have hv : v ∈ f.family q := by rw [hfm]; simp
      have hsort : (f.family q).Pairwise (· < ·) := hV.sorted.filter _
      have hle : v ≤ q.child := by
        rw [hfm] at hc1 hsort
        rcases List.mem_cons.1 hc1 with h | h
        · omega
        · exact Nat.le_of_lt ((List.pairwise_cons.1 hsort).1 _ h)
      have : v = q.child := by
        have := (List.mem_filter.1 hv).2
        simp only [decide_eq_true_eq] at this
        rcases this with h | h
        · exact h
        · rw [hst.parents, List.mem_reverse, hmap, List.mem_map] at h
          obtain ⟨w, hw, rfl⟩ := h
          have := hc p hp w hw
          rw [hst.child] at hle
          omega
      exact ⟨s, by rw [this, hst.child]⟩
  obtain ⟨s, hs⟩ := hfam
  rw [hst.table x (by rw [hmap]; exact hx) _ s hs, hg]
  simp only [Option.map_some, tableValue, hmap]
  unfold scaled
  rw [hprop x hx, if_neg one_ne_zero, div_one]

/-- **C68**, the numbers (partial): if every child is declared before its parents, the tables have the numbers written. -/
theorem C68_numbers_partial [IsStrictOrderedRing K] {num : Numerals K} {d : NetText} {file : List Char} (hd : d.Sensible num.value num.int) (hf : LaidOut d file)
    (hs : ∀ n ∈ d.nodes, n.name.length ≤ 40) (hp : d.pots ≠ []) (hl : LabelsLast d) (hc : ∀ p ∈ d.pots, ∀ w ∈ p.parents.getD [], d.place p.child < d.place w) :
    GivesNumbers num d file := by
  intro ptr s hr hg
  obtain ⟨m, l, a, b, e, hb, hV, hD, _, h⟩ := parse_eq hd hf hs hp hl ptr s hr hg
  exact ⟨_, _, h, as_written hV hD hc⟩

/-- **C68**, longer texts: labels and names of states are cut to 40 characters. -/
theorem C68_cut [IsStrictOrderedRing K] {num : Numerals K} {d : NetText} {file : List Char} (hd : d.Sensible num.value num.int) (hf : LaidOut d file)
    (hs : ∀ n ∈ d.nodes, n.name.length ≤ 40) (hp : d.pots ≠ []) (hl : LabelsLast d) (ptr : Nat) (s : Session K) (hr : s.lex.readLine = true) (hg : s.g.Fresh) :
    ∃ r e, parseModel num ptr s file = ok (some r, e) ∧
      r.nodes.map (fun v => (v.label, v.states)) = d.nodes.map (fun n => ((n.label.getD " ".toList).take 40, n.states.map (fun w => w.take 40))) := by
  obtain ⟨m, l, a, b, e, hb, hV, hD, _, h⟩ := parse_eq hd hf hs hp hl ptr s hr hg
  refine ⟨_, _, h, ?_⟩
  show (recsFrom num s.g.nextId d.nodes).map _ = _
  generalize s.g.nextId = i
  clear hd hf hs hp hl h hb hV hD
  induction d.nodes generalizing i with
  | nil => rfl
  | cons n ns ih =>
    rw [recsFrom, List.map_cons, List.map_cons, ih]
    rfl

/-- **C68** is false for every description with a node without label after a node with one: the label of the earlier node, whose memory was freed, is
copied. -/
theorem C68_label_refuted [IsStrictOrderedRing K] {num : Numerals K} {d : NetText} {file : List Char} (hd : d.Sensible num.value num.int) (hf : LaidOut d file) (hl : ¬ LabelsLast d)
    (ptr : Nat) (s : Session K) (hr : s.lex.readLine = true) (hg : s.g.Fresh) : parseModel num ptr s file = ub :=
  parse_ub hf ptr s hr (input_label_ub ptr hd.nodes hd.sizes hl hg (by omega))

/-- **C68** is false for every description without potentials: a null pointer is read. -/
theorem C68_no_potential_refuted [IsStrictOrderedRing K] {num : Numerals K} {d : NetText} {file : List Char} (hd : d.Sensible num.value num.int) (hf : LaidOut d file) (hp : d.pots = [])
    (ptr : Nat) (s : Session K) (hr : s.lex.readLine = true) (hg : s.g.Fresh) : parseModel num ptr s file = ub := by
  by_cases hl : LabelsLast d
  · exact parse_ub hf ptr s hr (input_bare_ub ptr hd.nodes hd.sizes hd.nonempty hp hl hg (by omega))
  · exact C68_label_refuted hd hf hl ptr s hr hg

/-- each lexeme on a line of its own -/
def wordLines (ts : List Lexeme) : List Line := ts.map (fun t => { lead := [], items := [(t, [])], comment := none })

/-- a sufficient test for lexemes that can be written on a line of their own -/
def plainLexeme : Lexeme → Bool
  | .key _ => true
  | .name [] => false
  | .name (c :: r) => c.isAlpha && r.all inName && (keywordOf (c :: r)).isNone && !(["inf".toList, "nan".toList].contains ((c :: r).take 3 |>.map Char.toLower)) && r.length < 9000
  | .number w => !(w.takeWhile Char.isDigit).isEmpty && ((w.dropWhile Char.isDigit).isEmpty || ((w.dropWhile Char.isDigit).head? == some '.' && (w.dropWhile Char.isDigit).tail.all Char.isDigit)) &&
      w.length < 9000
  | .text w => !w.contains '"' && !w.contains '\n' && !w.any separators.contains && w.length < 9000
  | .mark c => separators.contains c || c == '|'

theorem plain_legal {t : Lexeme} (h : plainLexeme t = true) : t.Legal ∧ t.hides = false ∧ t.spell.length < 9999 := by
  cases t with
  | key k => exact ⟨trivial, rfl, by cases k <;> decide⟩
  | name w =>
    cases w with
    | nil => cases h
    | cons c r =>
      simp only [plainLexeme, Bool.and_eq_true, decide_eq_true_eq, List.all_eq_true, Option.isNone_iff_eq_none, Bool.not_eq_true', List.contains_eq_mem] at h
      obtain ⟨⟨⟨⟨h1, h2⟩, h3⟩, h4⟩, h5⟩ := h
      refine ⟨⟨isName c r h1 h2 h3, ?_⟩, rfl, by simp only [Lexeme.spell, List.length_cons]; omega⟩
      rintro ⟨p, q, hw, hp⟩
      have hlen : p.length = 3 := by rcases hp with hp | hp <;> (have := congrArg List.length hp; simpa using this)
      have : (c :: r).take 3 = p := by rw [hw, List.take_left' hlen]
      rw [this] at h4
      have h4 := of_decide_eq_false h4
      apply h4
      rcases hp with hp | hp <;> rw [hp] <;> simp
  | number w =>
    simp only [plainLexeme, Bool.and_eq_true, Bool.or_eq_true, List.all_eq_true, decide_eq_true_eq, Bool.not_eq_true', List.isEmpty_eq_false_iff, List.isEmpty_iff, beq_iff_eq] at h
    obtain ⟨⟨h1, h2⟩, h3⟩ := h
    refine ⟨⟨[], w.takeWhile Char.isDigit, w.dropWhile Char.isDigit, [], by simp, Or.inl rfl, fun c hc => List.all_eq_true.1 List.all_takeWhile c hc, ?_, Or.inl rfl⟩, rfl, by simp only [Lexeme.spell]; omega⟩
    rcases h2 with h2 | ⟨h2, h4⟩
    · exact Or.inl ⟨h1, h2⟩
    · right
      cases hq : w.dropWhile Char.isDigit with
      | nil => rw [hq] at h2; cases h2
      | cons c r =>
        rw [hq] at h2 h4
        cases h2
        exact ⟨r, rfl, h4, Or.inl h1⟩
  | text w =>
    simp only [plainLexeme, Bool.and_eq_true, decide_eq_true_eq, Bool.not_eq_true', List.contains_eq_mem, decide_eq_false_iff_not] at h
    refine ⟨⟨h.1.1.1, h.1.1.2⟩, ?_, by simp only [Lexeme.spell, List.cons_append, List.length_cons, List.length_append, List.length_nil]; omega⟩
    simpa [Lexeme.hides] using h.1.2
  | mark c =>
    simp only [plainLexeme, Bool.or_eq_true, beq_iff_eq, List.contains_eq_mem, decide_eq_true_eq] at h
    exact ⟨h, rfl, by simp [Lexeme.spell]⟩

theorem laidOut_words (d : NetText) (h : d.lexemes.all plainLexeme = true) : LaidOut d (fileText (wordLines d.lexemes)) := by
  rw [List.all_eq_true] at h
  refine ⟨wordLines d.lexemes, ?_, ?_, rfl⟩
  · intro l hl
    obtain ⟨t, ht, rfl⟩ := List.mem_map.1 hl
    obtain ⟨h1, h2, h3⟩ := plain_legal (h t ht)
    refine ⟨gap _ (Or.inl rfl), ?_, ?_, by simp, ?_⟩
    · intro p hp
      rw [List.mem_singleton.1 hp]
      exact ⟨h1, gap _ (Or.inl rfl)⟩
    · exact ⟨by simp, h2⟩
    · simpa [Line.text] using h3
  · unfold fileLexemes wordLines
    rw [List.flatMap_map]
    simp

/-- a node with the given label and states `x` and `y` -/
def nodeOf (name : String) (label : Option String) : NodeText :=
  { discrete := false, name := name.toList, fields := (label.map (fun w => NodeField.label w.toList)).toList ++ [.states ["x".toList, "y".toList]] }

/-- a table without parents -/
def priorOf (name : String) : PotText := { child := name.toList, parents := none, data := some (.num "3".toList (.num "5".toList .nil)) }

/-- numbers of one digit -/
def demoNum : Numerals ℚ := { value := fun w => (((w.map (fun c => c.toNat - 48)).sum : Nat) : ℚ), int := fun w => some (w.map (fun c => c.toNat - 48)).sum }

/-- a network of two variables, `A` with parent `B` -/
def demoText (a b : Option String) : NetText :=
  { frame := .net [.size "8".toList "6".toList], nodes := [nodeOf "A" a, nodeOf "B" b]
    pots := [{ child := "A".toList, parents := some ["B".toList], data := some (.group (.num "1".toList (.num "0".toList .nil)) (.group (.num "0".toList (.num "1".toList .nil)) .nil)) },
      priorOf "B"] }

theorem demo_sensible (a b : Option String) : (demoText a b).Sensible demoNum.value demoNum.int := by
  have hst : ∀ (s : String) (l : Option String), (nodeOf s l).states = ["x".toList, "y".toList] := by
    intro s l; cases l <;> rfl
  have hnode : ∀ n ∈ (demoText a b).nodes, ∃ s l, n = nodeOf s l := by
    intro n hn
    simp only [demoText, List.mem_cons, List.not_mem_nil, or_false] at hn
    rcases hn with rfl | rfl
    · exact ⟨_, _, rfl⟩
    · exact ⟨_, _, rfl⟩
  have hval : ∀ w, (0 : ℚ) ≤ demoNum.value w := fun w => by unfold demoNum; positivity
  have hcA : (demoText a b).card ['A'] = 2 := by cases a <;> rfl
  have hcB : (demoText a b).card ['B'] = 2 := by cases b <;> rfl
  refine ⟨by simp [demoText], ?_, ?_, fun x y _ => ⟨rfl, rfl⟩, ?_, ?_, ?_⟩
  · show ["A".toList, "B".toList].Nodup
    decide
  · intro n hn
    obtain ⟨s, l, rfl⟩ := hnode n hn
    refine ⟨by cases l <;> simp [nodeOf, NodeField.same], by rw [hst]; simp, fun p _ => ⟨rfl, rfl⟩⟩
  · intro n hn w hw
    obtain ⟨s, l, rfl⟩ := hnode n hn
    cases l <;> cases hw
  · intro p hp
    simp only [demoText, List.mem_cons, List.not_mem_nil, or_false] at hp
    have hA : ∃ n ∈ (demoText a b).nodes, n.name = "A".toList := ⟨nodeOf "A" a, by simp [demoText], rfl⟩
    have hB : ∃ n ∈ (demoText a b).nodes, n.name = "B".toList := ⟨nodeOf "B" b, by simp [demoText], rfl⟩
    rcases hp with rfl | rfl
    · refine ⟨?_, by simp, by simp, ?_⟩
      · intro w hw
        simp only [Option.getD_some, List.mem_cons, List.not_mem_nil, or_false] at hw
        rcases hw with rfl | rfl
        · exact hA
        · exact hB
      · intro g hg
        cases hg
        refine ⟨?_, fun w _ => hval w⟩
        simp [hcA, hcB, Grouped.words]
    · refine ⟨?_, by simp [priorOf], by simp [priorOf], ?_⟩
      · intro w hw
        simp only [priorOf, Option.getD_none, List.mem_cons, List.not_mem_nil, or_false] at hw
        subst hw
        exact hB
      · intro g hg
        cases hg
        refine ⟨?_, fun w _ => hval w⟩
        simp [priorOf, hcB, Grouped.words]
  · show ["A".toList, "B".toList].Nodup
    decide

/-- The hypotheses of the partial theorems hold for this description. -/
example : Gives demoNum (demoText none (some "b")) (fileText (wordLines (demoText none (some "b")).lexemes)) ∧
    GivesNumbers demoNum (demoText none (some "b")) (fileText (wordLines (demoText none (some "b")).lexemes)) := by
  have hl : LabelsLast (demoText none (some "b")) := by
    unfold LabelsLast demoText
    simp [NodeText.label, nodeOf, NodeField.labelOf, List.findSome?]
  have h := laidOut_words (demoText none (some "b")) (by decide +kernel)
  refine ⟨C68_reads_partial (demo_sensible _ _) h ⟨?_, ?_, ?_⟩ (by simp [demoText]) hl, C68_numbers_partial (demo_sensible _ _) h ?_ (by simp [demoText]) hl ?_⟩
  · decide
  · intro n hn w hw
    simp only [demoText, List.mem_cons, List.not_mem_nil, or_false] at hn
    rcases hn with rfl | rfl <;> cases hw
    decide
  · decide
  · decide
  · decide

/-- **C68** is false: `C68_label_refuted` for two nodes, the first of which has a label. -/
theorem C68_refuted : ¬ C68_full ℚ := by
  intro h
  have hlay := laidOut_words (demoText (some "a") none) (by decide +kernel)
  obtain ⟨r, e, h1, _⟩ := (h demoNum (demoText (some "a") none) _ (demo_sensible _ _) hlay).1 0 Session.initial rfl Statics.initial_fresh
  have h2 := C68_label_refuted (demo_sensible (some "a") none) hlay (by
    unfold LabelsLast demoText
    simp [NodeText.label, nodeOf, NodeField.labelOf, List.findSome?]) 0 Session.initial rfl Statics.initial_fresh
  rw [h1] at h2
  cases h2

/-- a name of 41 letters -/
def longName : String := "abcdefghijklmnopqrstuvwxyzabcdefghijklmno"

/-- **C68** is false for names of more than 40 characters: the variable is stored under the first 40, the potential asks for all of them and reads a null
pointer. -/
theorem C68_long_name_refuted : ∃ d : NetText, d.Sensible demoNum.value demoNum.int ∧ LaidOut d (fileText (wordLines d.lexemes)) ∧ LabelsLast d ∧ d.pots ≠ [] ∧
    ∀ ptr, parseModel demoNum ptr Session.initial (fileText (wordLines d.lexemes)) = ub := by
  refine ⟨{ frame := .bare, nodes := [nodeOf longName none], pots := [priorOf longName] }, ?_, laidOut_words _ (by decide +kernel), by simp [LabelsLast], by simp, ?_⟩
  · have hval : ∀ w, (0 : ℚ) ≤ demoNum.value w := fun w => by unfold demoNum; positivity
    refine ⟨by simp, by simp, ?_, fun x y h => ⟨rfl, rfl⟩, ?_, ?_, by simp⟩
    · intro n hn
      rw [List.mem_singleton.1 hn]
      exact ⟨by simp [nodeOf], by decide, fun p _ => ⟨rfl, rfl⟩⟩
    · intro n hn w hw
      rw [List.mem_singleton.1 hn] at hw
      cases hw
    · intro p hp
      rw [List.mem_singleton.1 hp]
      refine ⟨?_, by simp [priorOf], by simp [priorOf], ?_⟩
      · intro w hw
        simp only [priorOf, Option.getD_none, List.mem_cons, List.not_mem_nil, or_false] at hw
        subst hw
        exact ⟨_, List.mem_singleton.2 rfl, rfl⟩
      · intro g hg
        cases hg
        exact ⟨by decide, fun w _ => hval w⟩
  · intro ptr
    exact parse_ub (laidOut_words _ (by decide +kernel)) ptr Session.initial rfl rfl

/-! ## C69 -/

/-- Several calls of `parse_model`, one after another: what they return, and the static variables afterwards. -/
def parseAll (num : Numerals K) : Session K → List (Nat × List Char) → Res (List (Option (ReadModel K)) × Session K)
  | s, [] => ok ([], s)
  | s, (ptr, file) :: fs => do
    let (r, s) ← parseModel num ptr s file
    let (rs, s) ← parseAll num s fs
    ok (r :: rs, s)

/-- What can be seen of a result: undefined, refused, or the texts of the variables. -/
def outcome (r : Res (Option (ReadModel K) × Session K)) : Option (Option (List (List Char × List (List Char)))) :=
  match r with
  | ub => none
  | ok (none, _) => some none
  | ok (some m, _) => some (some (m.nodes.map (fun v => (v.symbol, v.states))))

variable (K) in
/-- **C69** in full (a consequence of it, which is false): whatever was read before, the result is like at the start of the program. -/
def C69_full : Prop := ∀ (num : Numerals K) (fs : List (Nat × List Char)) (rs : List (Option (ReadModel K))) (e : Session K) (ptr : Nat) (file : List Char),
  parseAll num Session.initial fs = ok (rs, e) → outcome (parseModel num ptr e file) = outcome (parseModel num ptr Session.initial file)

theorem parse_freed {num : Numerals K} {ptr : Nat} {s e : Session K} {file : List Char} {r : Option (ReadModel K)} (hs : VarsFreed s.g)
    (h : parseModel num ptr s file = ok (r, e)) : r = none ∧ VarsFreed e.g := by
  unfold parseModel at h
  cases hl : lexFile s.lex file with
  | ub => rw [hl] at h; cases h
  | ok p =>
    obtain ⟨ts, last⟩ := p
    rw [hl] at h
    simp only [ok_bind] at h
    obtain ⟨h1, h2⟩ := keeps_input num ptr (ts.length + 1)
    cases hi : input num ptr (ts.length + 1) ⟨s.g, ts⟩ with
    | ub => rw [hi] at h; cases h
    | ok q =>
      obtain ⟨m, p⟩ := q
      rw [hi] at h
      simp only [ok_bind] at h
      cases m with
      | some m => exact absurd hi (h2 _ _ _ hs)
      | none => cases h; exact ⟨rfl, h1 _ _ _ hs hi⟩

theorem parse_some {num : Numerals K} {ptr : Nat} {s e : Session K} {file : List Char} {m : ReadModel K} (h : parseModel num ptr s file = ok (some m, e)) :
    VarsFreed e.g := by
  unfold parseModel at h
  cases hl : lexFile s.lex file with
  | ub => rw [hl] at h; cases h
  | ok p =>
    obtain ⟨ts, last⟩ := p
    rw [hl] at h
    simp only [ok_bind] at h
    cases hi : input num ptr (ts.length + 1) ⟨s.g, ts⟩ with
    | ub => rw [hi] at h; cases h
    | ok q =>
      obtain ⟨m, p⟩ := q
      rw [hi] at h
      simp only [ok_bind] at h
      cases m with
      | none => cases h
      | some m =>
        obtain ⟨l, hl⟩ := input_vars hi
        cases h
        show p.g.vars.free = .freed
        rw [hl]
        rfl

/-- **C69** is false in the strongest way: in a process, whatever files are read, at most one call of `parse_model` returns a model. -/
theorem C69_once_refuted (num : Numerals K) (fs : List (Nat × List Char)) : ∀ (s e : Session K) (rs : List (Option (ReadModel K))),
    parseAll num s fs = ok (rs, e) → (rs.filter Option.isSome).length ≤ 1 := by
  have key : ∀ (fs : List (Nat × List Char)) (s e : Session K) (rs : List (Option (ReadModel K))), VarsFreed s.g → parseAll num s fs = ok (rs, e) →
      rs.filter Option.isSome = [] := by
    intro fs
    induction fs with
    | nil => intro s e rs _ h; cases h; rfl
    | cons f fs ih =>
      intro s e rs hs h
      unfold parseAll at h
      obtain ⟨⟨r, s1⟩, h1, h⟩ := bind_ok h
      obtain ⟨⟨rs1, s2⟩, h2, h⟩ := bind_ok h
      cases h
      obtain ⟨hr, hs1⟩ := parse_freed hs h1
      subst hr
      rw [List.filter_cons_of_neg (by simp)]
      exact ih s1 _ _ hs1 h2
  induction fs with
  | nil => intro s e rs h; cases h; simp
  | cons f fs ih =>
    intro s e rs h
    unfold parseAll at h
    obtain ⟨⟨r, s1⟩, h1, h⟩ := bind_ok h
    obtain ⟨⟨rs1, s2⟩, h2, h⟩ := bind_ok h
    cases h
    cases r with
    | none =>
      rw [List.filter_cons_of_neg (by simp)]
      exact ih s1 _ _ h2
    | some m => simp [key fs s1 _ _ (parse_some h1) h2]

/-- **C69** is false after every success: reading any description that makes sense is then undefined, also the same file again. -/
theorem C69_again_refuted [IsStrictOrderedRing K] {num : Numerals K} {d d' : NetText} {file file' : List Char} (hd : d.Sensible num.value num.int) (hf : LaidOut d file)
    (hs : ∀ n ∈ d.nodes, n.name.length ≤ 40) (hp : d.pots ≠ []) (hl : LabelsLast d) (hd' : d'.Sensible num.value num.int) (hf' : LaidOut d' file')
    (ptr : Nat) (s : Session K) (hr : s.lex.readLine = true) (hg : s.g.Fresh) :
    ∃ r e, parseModel num ptr s file = ok (some r, e) ∧ ∀ ptr', parseModel num ptr' e file' = ub := by
  obtain ⟨m, l, a, b, e, _, _, _, he, h⟩ := parse_eq hd hf hs hp hl ptr s hr hg
  refine ⟨_, _, h, fun ptr' => parse_ub hf' ptr' _ he ?_⟩
  refine input_again_ub (g := { afterInput num s.g d.nodes a b with vars := .freed }) (fuel := d'.lexemes.length + 1) ptr' hd'.nonempty hd'.nodes hd'.sizes hg.strings rfl ?_ (by omega)
  simp only [afterInput]
  split
  · exact Or.inr rfl
  · exact Or.inl rfl

/-- `net a b`: refused at `a`, and `b` is left for the next call. -/
def restFile : List Char := "net a b\n".toList

/-- the session after it -/
def restSession : Session K := { lex := { file := [], line := restFile, left := 1, bounds := [6, 7], readLine := false }, g := Statics.initial }

/-- **C69** is false after a file that was refused: the rest of the line is read as the start of the next file, whatever it is. -/
theorem C69_line_refuted (num : Numerals K) (ptr : Nat) : parseModel num ptr Session.initial restFile = ok (none, restSession) ∧
    ∀ ptr' file, parseModel num ptr' restSession file = ub := by
  constructor
  · rfl
  · intro ptr' file
    obtain ⟨e, he, _⟩ := lexemes_file (fileLines file) { file := fileLines file, line := restFile, left := 0, bounds := [], readLine := true } rfl rfl
      (file.length - ((fileLines file).flatMap lineWords).length)
    have hc := words_file file
    have hlex : lexFile (restSession (K := K)).lex file = ok (.name ['b'] :: ((fileLines file).flatMap lineWords).map classify, e) := by
      unfold lexFile
      have hn : ((restSession (K := K)).lex.open_ file).nextToken =
          ok (some ['b'], { file := fileLines file, line := restFile, left := 0, bounds := [], readLine := true }) := rfl
      rw [lexemes_some (by simp) hn]
      have : (restSession (K := K)).lex.left + file.length = ((fileLines file).flatMap lineWords).length + 1 + (file.length - ((fileLines file).flatMap lineWords).length) := by
        show 1 + file.length = _
        omega
      rw [this]
      have h2 : ∀ a b : Nat, a + 1 + b = a + b + 1 := by omega
      first | rw [he] | rw [h2, he]
      rfl
    unfold parseModel
    rw [hlex]
    rfl

/-- `node A { states = ("x" "y"); } node B }`, one word on each line: refused, but the variable `A` is kept. -/
def leftFile : List Char := fileText (wordLines ((nodeOf "A" none).lexemes ++ [.key .node, nm "B", .mark '}']))

/-- **C69** is false after a file that was refused: its variables are part of the next model. -/
theorem C69_variables_refuted : ∃ e, parseModel demoNum 0 Session.initial leftFile = ok (none, e) ∧
    outcome (parseModel demoNum 0 e (fileText (wordLines (demoText none none).lexemes))) =
      some (some (["A", "A", "B"].map (fun s => (s.toList, ["x".toList, "y".toList])))) := by
  have h : (match parseModel demoNum 0 Session.initial leftFile with
      | ok (none, e) => outcome (parseModel demoNum 0 e (fileText (wordLines (demoText none none).lexemes)))
      | _ => none) = some (some (["A", "A", "B"].map (fun s => (s.toList, ["x".toList, "y".toList])))) := by decide +kernel
  split at h
  · next e he => exact ⟨e, he, h⟩
  · cases h

/-- **C69** is false. -/
theorem C69_refuted : ¬ C69_full ℚ := by
  intro h
  have h1 := (C69_line_refuted demoNum 0).1
  have h2 := h demoNum [(0, restFile)] [none] restSession 0 (fileText (wordLines (demoText none none).lexemes)) (by
    unfold parseAll
    rw [h1]
    rfl)
  rw [(C69_line_refuted demoNum 0).2] at h2
  have h3 : (outcome (parseModel demoNum 0 Session.initial (fileText (wordLines (demoText none none).lexemes)))).isSome = true := by decide +kernel
  rw [← h2] at h3
  cases h3

/-- **C69** (partial): if nothing is left from earlier files in the static variables, the result is determined by the file (any file), the next identity, and the
size of nodes used when the file has none.  What is missing from `C69_full`, which is false: static variables with something left. -/
theorem C69_fresh_partial (num : Numerals K) (ptr : Nat) (file : List Char) (s t : Session K) (hs : s.g.Fresh) (ht : t.g.Fresh) (hr : s.lex.readLine = true)
    (hr' : t.lex.readLine = true) (hid : s.g.nextId = t.g.nextId) (hx : s.g.sizeX = t.g.sizeX) (hy : s.g.sizeY = t.g.sizeY) :
    (parseModel num ptr s file = ub ∧ parseModel num ptr t file = ub) ∨
      ∃ r e e', parseModel num ptr s file = ok (r, e) ∧ parseModel num ptr t file = ok (r, e') ∧ e.g = e'.g := by
  have hg : s.g = t.g := by
    obtain ⟨l, g⟩ := s
    obtain ⟨l', g'⟩ := t
    obtain ⟨a1, a2, a3, a4, a5, a6, a7, a8, a9, a10, a11, a12, a13, a14⟩ := g
    obtain ⟨b1, b2, b3, b4, b5, b6, b7, b8, b9, b10, b11, b12, b13, b14⟩ := g'
    obtain ⟨h1, h2, h3, h4, h5, h6, h7, h8, h9, h10, h11, h12⟩ := hs
    obtain ⟨k1, k2, k3, k4, k5, k6, k7, k8, k9, k10, k11, k12⟩ := ht
    simp only at *
    simp only [*]
  obtain ⟨e1, h1, _⟩ := lexFile_eq file s.lex hr
  obtain ⟨e2, h2, _⟩ := lexFile_eq file t.lex hr'
  unfold parseModel
  rw [h1, h2, hg]
  simp only [ok_bind]
  cases hi : input num ptr ((((fileLines file).flatMap lineWords).map classify).length + 1) ⟨t.g, ((fileLines file).flatMap lineWords).map classify⟩ with
  | ub => exact Or.inl ⟨rfl, rfl⟩
  | ok q =>
    obtain ⟨m, p⟩ := q
    right
    cases m with
    | none => exact ⟨none, _, _, rfl, rfl, rfl⟩
    | some m => exact ⟨some m, _, _, rfl, rfl, rfl⟩

/-- **C69** (partial): for descriptions that make sense also the next identity does not matter: the network described is the same except for identities. -/
theorem C69_described_partial [IsStrictOrderedRing K] {num : Numerals K} {d : NetText} {file : List Char} (hd : d.Sensible num.value num.int) (hf : LaidOut d file)
    (hs : ShortTexts d) (hp : d.pots ≠ []) (hl : LabelsLast d) (ptr ptr' : Nat) (s t : Session K) (hr : s.lex.readLine = true) (hr' : t.lex.readLine = true)
    (hg : s.g.Fresh) (hg' : t.g.Fresh) :
    ∃ r e r' e', parseModel num ptr s file = ok (some r, e) ∧ parseModel num ptr' t file = ok (some r', e') ∧
      d.Describes num.value s.g.nextId r.file ∧ d.Describes num.value t.g.nextId r'.file ∧
      r.nodes.map (fun v => (v.symbol, v.label, v.states)) = r'.nodes.map (fun v => (v.symbol, v.label, v.states)) := by
  obtain ⟨r, e, h1, _, h2, _, _, h3, _⟩ := C68_reads_partial hd hf hs hp hl ptr s hr hg
  obtain ⟨r', e', h1', _, h2', _, _, h3', _⟩ := C68_reads_partial hd hf hs hp hl ptr' t hr' hg'
  refine ⟨r, e, r', e', h1, h1', h2, h2', ?_⟩
  have key : ∀ (ns : List NodeText) (l : List NodeRec), List.Forall₂ (SameTexts num) ns l →
      l.map (fun v => (v.symbol, v.label, v.states)) = ns.map (fun n => (n.name, n.label.getD " ".toList, n.states)) := by
    intro ns l h
    induction h with
    | nil => rfl
    | cons h _ ih => rw [List.map_cons, List.map_cons, ih, h.symbol, h.label, h.states]
  rw [key _ _ h3, key _ _ h3']

/-- The session after `net` and, on the next line, `a` has nothing left. -/
example (num : Numerals K) : ∃ e, parseModel num 0 Session.initial "net\na\n".toList = ok (none, e) ∧ e.g.Fresh ∧ e.lex.readLine = true :=
  ⟨_, rfl, Statics.initial_fresh, rfl⟩

end Nip.Props
