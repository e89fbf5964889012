import Verif.HuginAccept
import Verif.HuginUnique
import Verif.Props.HuginParse

/-!
# C85: only network files are accepted, C86: what accepted files are like
-/

namespace Nip.Props

open Res Spec Parse

variable {K : Type} [Field K] [LinearOrder K]

/-- The variables are the nodes of the description in their order: numbers from `base` on, names, labels (a blank if there is none) and states (those
given last), cut to 40 characters. -/
def SameNodes (base : Nat) (d : NetText) (r : ReadModel K) : Prop :=
  r.nodes.map (fun v => v.id) = List.range' base d.nodes.length ∧
    r.nodes.map (fun v => (v.symbol, v.label, v.states)) =
      d.nodes.map (fun n => (n.name.take 40, (n.label.getD " ".toList).take 40, (n.lastStates.getD []).map (fun w => w.take 40)))

omit [Field K] [LinearOrder K] in
theorem sameNodes {num : Numerals K} {base : Nat} {d : NetText} {r : ReadModel K} (h : r.nodes = madeFrom num base d.nodes) : SameNodes base d r := by
  unfold SameNodes
  rw [h]
  clear h
  generalize d.nodes = ns
  induction ns generalizing base with
  | nil => exact ⟨rfl, rfl⟩
  | cons n ns ih =>
    obtain ⟨h1, h2⟩ := @ih (base + 1)
    constructor
    · rw [madeFrom, List.map_cons, h1, List.length_cons, List.range'_succ]
      rfl
    · rw [madeFrom, List.map_cons, h2, List.map_cons]
      rfl

/-- **C85**: if a model is returned, the lexemes of the text are those of exactly one description, and the variables of the model are its nodes. -/
theorem C85_only_networks {num : Numerals K} {ptr : Nat} {s s' : Session K} {file : List Char} {r : ReadModel K} (hg : s.g.Fresh)
    (h : parseModel num ptr s file = ok (some r, s')) :
    ∃ ts e, lexFile s.lex file = ok (ts, e) ∧ ∃ d : NetText, ts = d.lexemes ∧ (∀ d' : NetText, ts = d'.lexemes → d' = d) ∧ SameNodes s.g.nextId d r := by
  obtain ⟨d, e, h1, h2⟩ := parse_inv hg h
  exact ⟨d.lexemes, e, h1, d, rfl, fun d' hd => lexemes_injective hd.symm, sameNodes h2.recs⟩

/-- **C85**, for every layout (C67), without the lexical analysis: if a model is returned for lines of lexemes, spaces and comments, the lexemes are those
of exactly one description, and the variables of the model are its nodes. -/
theorem C85_layout {num : Numerals K} {ptr : Nat} {s s' : Session K} {ls : List Line} {r : ReadModel K} (hl : ∀ l ∈ ls, l.Legal) (hr : s.lex.readLine = true) (hg : s.g.Fresh)
    (h : parseModel num ptr s (fileText ls) = ok (some r, s')) :
    ∃ d : NetText, fileLexemes ls = d.lexemes ∧ (∀ d' : NetText, fileLexemes ls = d'.lexemes → d' = d) ∧ SameNodes s.g.nextId d r := by
  obtain ⟨ts, e, h1, d, h2, h3, h4⟩ := C85_only_networks hg h
  obtain ⟨e', h5, _⟩ := lexFile_legal hl s.lex hr
  rw [h5] at h1
  cases h1
  exact ⟨d, h2, h3, h4⟩

/-- what `parse_model` says about a text, in a new process -/
def taken (num : Numerals K) (file : List Char) : Bool :=
  match parseModel num 8 Session.initial file with
  | ok (some _, _) => true
  | _ => false

theorem taken_iff {num : Numerals K} {file : List Char} : taken num file = true ↔ ∃ r e, parseModel num 8 Session.initial file = ok (some r, e) := by
  unfold taken
  constructor
  · intro h
    split at h
    · exact ⟨_, _, by assumption⟩
    · cases h
  · rintro ⟨r, e, h⟩
    rw [h]

/-- A text that is accepted: the hypotheses of C85 can be met. -/
example : ∃ (r : ReadModel ℚ) (e : Session ℚ), Statics.Fresh (Session.initial (K := ℚ)).g ∧
    parseModel demoNum 8 Session.initial "net{}node A{states=(\"x\" \"y\");}%\npotential(A){data=(3 5);}".toList = ok (some r, e) := by
  obtain ⟨r, e, h⟩ := taken_iff.1 (show taken demoNum "net{}node A{states=(\"x\" \"y\");}%\npotential(A){data=(3 5);}".toList = true by decide +kernel)
  exact ⟨r, e, Statics.initial_fresh, h⟩

/-- A node after a potential is not in any description; the text is refused. -/
example : parseModel demoNum 8 Session.initial "node A{states=(\"x\");}potential(A){}node B{states=(\"x\");}".toList ≠ ub ∧
    taken demoNum "node A{states=(\"x\");}potential(A){}node B{states=(\"x\");}".toList = false := by
  refine ⟨?_, by decide +kernel⟩
  intro h
  have : (match parseModel demoNum 8 Session.initial "node A{states=(\"x\");}potential(A){}node B{states=(\"x\");}".toList with | ub => true | _ => false) = false := by decide +kernel
  rw [h] at this
  cases this

/-! ## C86 -/

variable (K) in
/-- **C86** in full: an accepted description makes sense. -/
def C86_full : Prop := ∀ (num : Numerals K) (d : NetText) (file : List Char), LaidOut d file → ∀ (ptr : Nat) (s s' : Session K) (r : ReadModel K), s.lex.readLine = true →
  s.g.Fresh → parseModel num ptr s file = ok (some r, s') → d.Meaningful num.value num.int

/-- **C86** (partial): an accepted description has nodes with states, potentials, known names, enough numbers, successors with the same number of states.
What is missing from `C86_full`, which is false: the conditions of `Careful`, names of states, circles. -/
theorem C86_required_partial {num : Numerals K} {d : NetText} {file : List Char} (hf : LaidOut d file) {ptr : Nat} {s s' : Session K} {r : ReadModel K}
    (hr : s.lex.readLine = true) (hg : s.g.Fresh) (h : parseModel num ptr s file = ok (some r, s')) : d.Required num.int := by
  obtain ⟨ls, h1, h2, rfl⟩ := hf
  obtain ⟨d', e, h3, h4⟩ := parse_inv hg h
  obtain ⟨e', h5, _⟩ := lexFile_legal h1 s.lex hr
  rw [h5, h2] at h3
  have hd : d.lexemes = d'.lexemes := by
    injection h3 with h3
    exact (Prod.mk.inj h3).1
  rw [lexemes_injective hd]
  exact accepted_required h4

theorem last_is_first (fs : List NodeField) (h : fs.Pairwise (fun a b => a.same b = false)) : (fs.filterMap NodeField.statesOf).getLast? = fs.findSome? NodeField.statesOf := by
  induction fs with
  | nil => rfl
  | cons f fs ih =>
    obtain ⟨h1, h2⟩ := List.pairwise_cons.1 h
    cases hf : f.statesOf with
    | none => rw [List.filterMap_cons_none hf, List.findSome?_cons, hf]; exact ih h2
    | some l =>
      have hn : fs.filterMap NodeField.statesOf = [] := by
        rw [List.filterMap_eq_nil_iff]
        intro g hg
        have := h1 g hg
        cases f with
        | states _ =>
          cases g with
          | states _ => cases this
          | _ => rfl
        | _ => cases hf
      rw [List.filterMap_cons_some hf, List.findSome?_cons, hf, hn]
      rfl

/-- what is asked for and what nobody looks at, together -/
theorem sensible_of_required {value : List Char → K} {int : List Char → Option Nat} {d : NetText} (h : d.Required int) (hc : d.Careful value) : d.Sensible value int := by
  have hstates : ∀ n ∈ d.nodes, n.lastStates = n.fields.findSome? NodeField.statesOf := fun n hn => last_is_first _ (hc.fields n hn)
  have hcalled : ∀ w, d.called w = d.nodes.find? (fun n => n.name == w) := by
    intro w
    unfold NetText.called
    have : ∀ l : List NodeText, (∀ n ∈ l, n.name.length ≤ 40) → l.find? (fun n => n.name.take 40 == w) = l.find? (fun n => n.name == w) := by
      intro l
      induction l with
      | nil => intro _; rfl
      | cons n l ih =>
        intro hl
        rw [List.find?_cons, List.find?_cons, List.take_of_length_le (hl n (by simp)), ih (fun m hm => hl m (by simp [hm]))]
    exact this _ hc.short
  have hname : ∀ w m, d.called w = some m → m ∈ d.nodes ∧ m.name = w := by
    intro w m hm
    rw [hcalled] at hm
    exact ⟨List.mem_of_find?_eq_some hm, by simpa using List.find?_some hm⟩
  have hlen : ∀ n ∈ d.nodes, n.lastStates.elim 0 List.length = n.states.length := by
    intro n hn
    rw [hstates n hn]
    unfold NodeText.states
    cases n.fields.findSome? NodeField.statesOf <;> rfl
  have hcount : ∀ w, d.count w = d.card w := by
    intro w
    unfold NetText.count NetText.card
    cases hq : d.called w with
    | none => rw [← hcalled, hq]; rfl
    | some m =>
      rw [← hcalled, hq]
      exact hlen m (hname w m hq).1
  refine ⟨h.nodes, hc.names, fun n hn => ⟨hc.fields n hn, ?_, ?_⟩, h.sizes, ?_, fun p hp => ⟨?_, ?_, hc.distinct p hp, ?_⟩, hc.children⟩
  · obtain ⟨l, h1, h2⟩ := h.states n hn
    rw [hstates n hn] at h1
    unfold NodeText.states
    rw [h1]
    exact h2
  · intro p hp
    obtain ⟨f, f1, f2⟩ := List.exists_of_findSome?_eq_some hp
    cases f with
    | position x y => cases f2; exact h.positions n hn x y f1
    | _ => cases f2
  · intro n hn w hw
    obtain ⟨⟨m, h1⟩, h2⟩ := h.next n hn w hw
    exact ⟨⟨m, hname w m h1⟩, by rw [← hcount, ← h2, hlen n hn]⟩
  · intro w hw
    obtain ⟨m, hm⟩ := h.names p hp w hw
    exact ⟨m, hname w m hm⟩
  · intro l hl h0
    rw [h0] at hl
    exact h.parents p hp hl
  · intro g hg
    refine ⟨?_, hc.positive p hp g hg⟩
    have := (h.numbers p hp g hg).2
    have he : (p.child :: p.parents.getD []).map d.count = (p.child :: p.parents.getD []).map d.card := List.map_congr_left (fun w _ => hcount w)
    rwa [he] at this

/-- **C86** (partial): an accepted description that is careful where nobody looks makes sense. -/
theorem C86_sensible_partial {num : Numerals K} {d : NetText} {file : List Char} (hf : LaidOut d file) (hc : d.Careful num.value) {ptr : Nat} {s s' : Session K} {r : ReadModel K}
    (hr : s.lex.readLine = true) (hg : s.g.Fresh) (h : parseModel num ptr s file = ok (some r, s')) : d.Sensible num.value num.int :=
  sensible_of_required (C86_required_partial hf hr hg h) hc

/-- **C86**, exactly: a description that is careful where nobody looks is accepted if and only if it has what is asked for and no node without label stands
after a node with one. -/
theorem C86_exactly [IsStrictOrderedRing K] {num : Numerals K} {d : NetText} {file : List Char} (hf : LaidOut d file) (hc : d.Careful num.value) (ptr : Nat) {s : Session K}
    (hr : s.lex.readLine = true) (hg : s.g.Fresh) : (∃ r e, parseModel num ptr s file = ok (some r, e)) ↔ d.Required num.int ∧ LabelsLast d := by
  constructor
  · rintro ⟨r, e, h⟩
    refine ⟨C86_required_partial hf hr hg h, ?_⟩
    by_contra hl
    rw [C68_label_refuted (C86_sensible_partial hf hc hr hg h) hf hl ptr s hr hg] at h
    cases h
  · rintro ⟨h1, h2⟩
    obtain ⟨m, l, a, b, e, _, _, _, _, h⟩ := parse_eq (sensible_of_required h1 hc) hf hc.short h1.potentials h2 ptr s hr hg
    exact ⟨_, _, h⟩

theorem careful_of_sensible {value : List Char → K} {int : List Char → Option Nat} {d : NetText} (h : d.Sensible value int) (hs : ∀ n ∈ d.nodes, n.name.length ≤ 40) :
    d.Careful value :=
  ⟨hs, h.names, fun n hn => (h.nodes n hn).once, fun p hp => (h.pots p hp).distinct, fun p hp g hg => ((h.pots p hp).numbers g hg).2, h.children⟩

/-- The hypotheses of the theorems hold for a network of two variables, and it is accepted. -/
example : LaidOut (demoText none (some "b")) (fileText (wordLines (demoText none (some "b")).lexemes)) ∧ (demoText none (some "b")).Careful demoNum.value ∧
    (demoText none (some "b")).Required demoNum.int ∧ ∃ r e, parseModel demoNum 8 Session.initial (fileText (wordLines (demoText none (some "b")).lexemes)) = ok (some r, e) := by
  have h1 := laidOut_words (demoText none (some "b")) (by decide +kernel)
  have h2 : (demoText none (some "b")).Careful demoNum.value := careful_of_sensible (demo_sensible _ _) (by decide)
  have h3 := taken_iff.1 (show taken demoNum (fileText (wordLines (demoText none (some "b")).lexemes)) = true by decide +kernel)
  exact ⟨h1, h2, ((C86_exactly h1 h2 8 rfl Statics.initial_fresh).1 h3).1, h3⟩

/-- A description is accepted, written one lexeme on a line. -/
def Taken (num : Numerals ℚ) (d : NetText) : Prop :=
  LaidOut d (fileText (wordLines d.lexemes)) ∧ ∃ r e, parseModel num 8 Session.initial (fileText (wordLines d.lexemes)) = ok (some r, e)

theorem taken_words {num : Numerals ℚ} {d : NetText} (h1 : d.lexemes.all plainLexeme = true) (h2 : taken num (fileText (wordLines d.lexemes)) = true) : Taken num d :=
  ⟨laidOut_words d h1, taken_iff.1 h2⟩

/-- **C86** is false: two nodes with the same name are accepted. -/
theorem C86_names_refuted : ∃ d : NetText, Taken demoNum d ∧ ¬ (d.nodes.map (fun n => n.name)).Nodup :=
  ⟨{ frame := .bare, nodes := [nodeOf "A" none, nodeOf "A" none], pots := [priorOf "A"] }, taken_words (by decide +kernel) (by decide +kernel), by decide⟩

/-- **C86** is false: two potentials for the same child are accepted. -/
theorem C86_potentials_refuted : ∃ d : NetText, Taken demoNum d ∧ ¬ (d.pots.map (fun p => p.child)).Nodup :=
  ⟨{ frame := .bare, nodes := [nodeOf "A" none], pots := [priorOf "A", priorOf "A"] }, taken_words (by decide +kernel) (by decide +kernel), by decide⟩

/-- **C86** is false: states given twice are accepted. -/
theorem C86_fields_refuted : ∃ d : NetText, Taken demoNum d ∧ ∃ n ∈ d.nodes, ¬ n.fields.Pairwise (fun a b => a.same b = false) :=
  ⟨{ frame := .bare, nodes := [{ discrete := false, name := "A".toList, fields := [.states ["x".toList], .states ["x".toList, "y".toList]] }], pots := [priorOf "A"] },
    taken_words (by decide +kernel) (by decide +kernel), _, List.mem_singleton.2 rfl, by decide⟩

/-- **C86** is false: two states with the same name are accepted. -/
theorem C86_states_refuted : ∃ d : NetText, Taken demoNum d ∧ ∃ n ∈ d.nodes, ¬ n.states.Nodup :=
  ⟨{ frame := .bare, nodes := [{ discrete := false, name := "A".toList, fields := [.states ["x".toList, "x".toList]] }], pots := [priorOf "A"] },
    taken_words (by decide +kernel) (by decide +kernel), _, List.mem_singleton.2 rfl, by decide⟩

/-- **C86** is false: two variables that are parents of each other are accepted. -/
theorem C86_circle_refuted : ∃ d : NetText, Taken demoNum d ∧ ¬ ∃ rank : List Char → Nat, ∀ p ∈ d.pots, ∀ w ∈ p.parents.getD [], rank w < rank p.child := by
  refine ⟨{ frame := .bare, nodes := [nodeOf "A" none, nodeOf "B" none], pots := [⟨"A".toList, some ["B".toList], none⟩, ⟨"B".toList, some ["A".toList], none⟩] },
    taken_words (by decide +kernel) (by decide +kernel), ?_⟩
  rintro ⟨rank, h⟩
  have h1 := h ⟨"A".toList, some ["B".toList], none⟩ (by simp) "B".toList (by simp)
  have h2 := h ⟨"B".toList, some ["A".toList], none⟩ (by simp) "A".toList (by simp)
  simp only at h1 h2
  omega

/-- numbers of one digit, and negative ones -/
def signedNum : Numerals ℚ := { value := fun w => if w.head? = some '-' then - demoNum.value w.tail else demoNum.value w, int := demoNum.int }

/-- a table with a negative number -/
def negText : NetText := { frame := .bare, nodes := [nodeOf "A" none], pots := [⟨"A".toList, none, some (.num "-1".toList (.num "3".toList .nil))⟩] }

theorem neg_laidOut : LaidOut negText (fileText (wordLines negText.lexemes)) := by
  have hlegal : ∀ t ∈ negText.lexemes, t.Legal ∧ t.hides = false ∧ t.spell.length < 9999 := by
    intro t ht
    by_cases hm : t = .number ['-', '1']
    · subst hm
      exact ⟨⟨['-'], ['1'], [], [], rfl, Or.inr (Or.inl rfl), by intro c hc; rw [List.mem_singleton.1 hc]; rfl, Or.inl ⟨by simp, rfl⟩, Or.inl rfl⟩, rfl, by decide⟩
    · refine plain_legal ?_
      have hall : negText.lexemes.all (fun t => t == .number ['-', '1'] || plainLexeme t) = true := by decide +kernel
      have := List.all_eq_true.1 hall t ht
      rw [Bool.or_eq_true] at this
      rcases this with h | h
      · exact absurd (eq_of_beq h) hm
      · exact h
  generalize negText = d at hlegal
  refine ⟨wordLines d.lexemes, ?_, ?_, rfl⟩
  · intro l hl
    obtain ⟨t, ht, rfl⟩ := List.mem_map.1 hl
    obtain ⟨h1, h2, h3⟩ := hlegal t ht
    refine ⟨gap _ (Or.inl rfl), ?_, ⟨by simp, h2⟩, by simp, by simpa [Line.text] using h3⟩
    intro p hp
    rw [List.mem_singleton.1 hp]
    exact ⟨h1, gap _ (Or.inl rfl)⟩
  · unfold fileLexemes wordLines
    rw [List.flatMap_map]
    simp

/-- is there a negative number in a table of the model? -/
def negativeTable (x : Res (Option (ReadModel ℚ) × Session ℚ)) : Bool :=
  match x with
  | ok (some r, _) => r.file.pots.any (fun q => q.table.data.any (fun y => y < 0))
  | _ => false

/-- **C86** is false: negative numbers are accepted, and a table of the model has them. -/
theorem C86_negative_refuted : ∃ d : NetText, Taken signedNum d ∧ (∃ p ∈ d.pots, ∃ g, p.data = some g ∧ ∃ w ∈ g.words, signedNum.value w < 0) ∧
    ∃ r e, parseModel signedNum 8 Session.initial (fileText (wordLines d.lexemes)) = ok (some r, e) ∧ ∃ q ∈ r.file.pots, ∃ x ∈ q.table.data, x < 0 := by
  have h : negativeTable (parseModel signedNum 8 Session.initial (fileText (wordLines negText.lexemes))) = true := by decide +kernel
  have h' : ∃ r e, parseModel signedNum 8 Session.initial (fileText (wordLines negText.lexemes)) = ok (some r, e) ∧ ∃ q ∈ r.file.pots, ∃ x ∈ q.table.data, x < 0 := by
    generalize parseModel signedNum 8 Session.initial (fileText (wordLines negText.lexemes)) = x at h
    unfold negativeTable at h
    split at h
    · refine ⟨_, _, rfl, ?_⟩
      obtain ⟨q, hq, h⟩ := List.any_eq_true.1 h
      obtain ⟨y, hy, h⟩ := List.any_eq_true.1 h
      exact ⟨q, hq, y, hy, by simpa using h⟩
    · cases h
  refine ⟨negText, ⟨neg_laidOut, ?_⟩, ⟨_, List.mem_singleton.2 rfl, _, rfl, "-1".toList, by simp [Grouped.words], ?_⟩, h'⟩
  · obtain ⟨r, e, h1, _⟩ := h'
    exact ⟨r, e, h1⟩
  · have : signedNum.value ['-', '1'] = -1 := by decide +kernel
    show signedNum.value ['-', '1'] < 0
    rw [this]
    norm_num

/-- **C86** is false. -/
theorem C86_refuted : ¬ C86_full ℚ := by
  intro h
  obtain ⟨d, ⟨h1, r, e, h2⟩, h3⟩ := C86_names_refuted
  exact h3 (h demoNum d _ h1 8 Session.initial e r rfl Statics.initial_fresh h2).sensible.names

end Nip.Props
