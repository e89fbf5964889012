import Verif.HuginInput
import Verif.HuginKeep
import Verif.Spec.Accept

/-! # What the parser accepts: inversion of the rules -/

namespace Nip

open Res Spec Parse

variable {K : Type} {α β : Type}

theorem bind_some_inv {m : Parse K α} {f : α → Parse K β} {s s' : PState K} {b : β} (h : (m >>= f) s = ok (some b, s')) :
    ∃ a s'', m s = ok (some a, s'') ∧ f a s'' = ok (some b, s') := by
  rcases bind_cases h with ⟨_, h⟩ | h
  · cases h
  · exact h

theorem expect_inv {t : Lexeme} {s s' : PState K} {a : Unit} (h : expect t s = ok (some a, s')) : s.rest = t :: s'.rest ∧ s'.g = s.g := by
  obtain ⟨g, r⟩ := s
  cases r with
  | nil => cases h
  | cons x r =>
    simp only [expect] at h
    split at h
    · cases h; subst_vars; exact ⟨rfl, rfl⟩
    · cases h

theorem name_inv {s s' : PState K} {w : List Char} (h : takeName s = ok (some w, s')) : s.rest = .name w :: s'.rest ∧ s'.g = s.g := by
  obtain ⟨g, r⟩ := s
  cases r with
  | nil => cases h
  | cons x r => cases x <;> cases h; exact ⟨rfl, rfl⟩

theorem text_inv {s s' : PState K} {w : List Char} (h : takeText s = ok (some w, s')) : s.rest = .text w :: s'.rest ∧ s'.g = s.g := by
  obtain ⟨g, r⟩ := s
  cases r with
  | nil => cases h
  | cons x r => cases x <;> cases h; exact ⟨rfl, rfl⟩

theorem number_inv {s s' : PState K} {w : List Char} (h : takeNumber s = ok (some w, s')) : s.rest = .number w :: s'.rest ∧ s'.g = s.g := by
  obtain ⟨g, r⟩ := s
  cases r with
  | nil => cases h
  | cons x r => cases x <;> cases h; exact ⟨rfl, rfl⟩

/-- Numbers that could be read: one group for each open parenthesis and one more. -/
theorem scan_inv : ∀ (d : Nat) (l : List Lexeme), (scanNumbers d l).1 = true → ∃ (g : Grouped) (gs : List Grouped), gs.length = d ∧
    l = g.lexemes ++ gs.flatMap (fun g => .mark ')' :: g.lexemes) ++ (scanNumbers d l).2.2 ∧
    (scanNumbers d l).2.1 = g.words ++ gs.flatMap Grouped.words := by
  intro d l
  induction d, l using scanNumbers.induct with
  | case1 d w r ih =>
    intro h
    rw [scanNumbers] at h ⊢
    obtain ⟨g, gs, h1, h2, h3⟩ := ih h
    refine ⟨.num w g, gs, h1, ?_, ?_⟩
    · simp only [Grouped.lexemes, List.cons_append]
      rw [← h2]
    · simp only [Grouped.words, List.cons_append]
      rw [← h3]
  | case2 d r ih =>
    intro h
    rw [scanNumbers] at h ⊢
    obtain ⟨g, gs, h1, h2, h3⟩ := ih h
    cases gs with
    | nil => simp at h1
    | cons e gs =>
      refine ⟨.group g e, gs, by simpa using h1, ?_, ?_⟩
      · simp only [Grouped.lexemes, List.cons_append, List.append_assoc]
        simp only [List.flatMap_cons, List.append_assoc, List.cons_append] at h2
        rw [← h2]
      · rw [h3]
        simp [Grouped.words]
  | case3 d r ih =>
    intro h
    rw [scanNumbers] at h ⊢
    obtain ⟨g, gs, h1, h2, h3⟩ := ih h
    refine ⟨.nil, g :: gs, by simpa using h1, ?_, ?_⟩
    · simp only [Grouped.lexemes, List.nil_append, List.flatMap_cons, List.cons_append]
      rw [← h2]
    · rw [h3]
      simp [Grouped.words]
  | case4 r h1 h2 =>
    intro h
    have : scanNumbers 0 r = (true, [], r) := by
      cases r with
      | nil => rfl
      | cons x r =>
        rw [scanNumbers]
        · exact h1
        · exact h2
    exact ⟨.nil, [], rfl, by rw [this]; rfl, by rw [this]; rfl⟩
  | case5 d r h1 h2 h3 =>
    intro h
    exfalso
    revert h
    have : scanNumbers (d + 1) r = (false, [], r.tail) := by
      cases r with
      | nil => rfl
      | cons x r =>
        rw [scanNumbers]
        · exact h1
        · exact h2
        · exact h3
    rw [this]
    simp

theorem scan0_inv {l : List Lexeme} (h : (scanNumbers 0 l).1 = true) : ∃ g : Grouped, l = g.lexemes ++ (scanNumbers 0 l).2.2 ∧ (scanNumbers 0 l).2.1 = g.words := by
  obtain ⟨g, gs, h1, h2, h3⟩ := scan_inv 0 l h
  have : gs = [] := by simpa using h1
  subst this
  exact ⟨g, by simpa using h2, by simpa using h3⟩

theorem value_inv {s s' : PState K} {a : Unit} (h : valueRule s = ok (some a, s')) : ∃ v : FieldValue, s.rest = v.lexemes ++ s'.rest ∧ s'.g = s.g := by
  unfold valueRule at h
  rw [run_some (run_peek _)] at h
  have key : ∀ {a}, ignoredNumbers s = ok (some a, s') → ∃ v : FieldValue, s.rest = v.lexemes ++ s'.rest ∧ s'.g = s.g := by
    intro a h
    unfold ignoredNumbers at h
    by_cases hx : (scanNumbers 0 s.rest).1 = true
    · simp only [hx, if_true] at h
      obtain ⟨g, h1, _⟩ := scan0_inv hx
      cases h
      exact ⟨.numbers g, h1, rfl⟩
    · simp only [hx] at h
      cases h
  cases hq : s.rest.head? with
  | none => rw [hq] at h; exact key h
  | some t =>
    rw [hq] at h
    cases t with
    | text w =>
      replace h := bind_some_inv h
      obtain ⟨w, s1, h1, h2⟩ := h
      cases h2
      obtain ⟨e1, e2⟩ := text_inv h1
      exact ⟨.text w, e1, e2⟩
    | _ => exact key h

theorem unknown_inv {s s' : PState K} {a : Unit} (h : unknownDeclaration s = ok (some a, s')) :
    ∃ (n : List Char) (v : FieldValue), s.rest = .name n :: .mark '=' :: (v.lexemes ++ .mark ';' :: s'.rest) ∧ s'.g = s.g := by
  unfold unknownDeclaration at h
  replace h := bind_some_inv h; obtain ⟨n, s1, h1, h⟩ := h
  replace h := bind_some_inv h; obtain ⟨_, s2, h2, h⟩ := h
  replace h := bind_some_inv h; obtain ⟨_, s3, h3, h⟩ := h
  obtain ⟨a1, b1⟩ := name_inv h1
  obtain ⟨a2, b2⟩ := expect_inv h2
  obtain ⟨v, a3, b3⟩ := value_inv h3
  obtain ⟨a4, b4⟩ := expect_inv h
  exact ⟨n, v, by rw [a1, a2, a3, a4], by rw [b4, b3, b2, b1]⟩

theorem scanTexts_inv : ∀ l : List Lexeme, l = (scanTexts l).1.map .text ++ (scanTexts l).2 := by
  intro l
  induction l with
  | nil => rfl
  | cons x r ih =>
    cases x <;> try rfl
    rw [scanTexts]
    simp only [List.map_cons, List.cons_append]
    rw [← ih]

theorem states_inv {s s' : PState K} {a : Unit} (h : statesDeclaration s = ok (some a, s')) (hs : s.g.strings = []) :
    ∃ ns : List (List Char), ns ≠ [] ∧ s.rest = (NodeField.states ns).lexemes ++ s'.rest ∧ s'.g = { s.g with states := some ns } := by
  unfold statesDeclaration at h
  replace h := bind_some_inv h; obtain ⟨_, s1, h1, h⟩ := h
  replace h := bind_some_inv h; obtain ⟨_, s2, h2, h⟩ := h
  replace h := bind_some_inv h; obtain ⟨_, s3, h3, h⟩ := h
  replace h := bind_some_inv h; obtain ⟨_, s4, h4, h⟩ := h
  replace h := bind_some_inv h; obtain ⟨_, s5, h5, h⟩ := h
  replace h := bind_some_inv h; obtain ⟨_, s6, h6, h⟩ := h
  obtain ⟨a1, b1⟩ := expect_inv h1
  obtain ⟨a2, b2⟩ := expect_inv h2
  obtain ⟨a3, b3⟩ := expect_inv h3
  obtain ⟨a5, b5⟩ := expect_inv h5
  obtain ⟨a6, b6⟩ := expect_inv h6
  have hg3 : s3.g = s.g := by rw [b3, b2, b1]
  have e4 : s4 = { g := { s3.g with strings := s3.g.strings ++ (scanTexts s3.rest).1 }, rest := (scanTexts s3.rest).2 } := by
    unfold strings at h4
    cases h4
    rfl
  rw [e4] at a5 b5
  have ht := scanTexts_inv s3.rest
  rw [run_some (run_statics _)] at h
  have hg6 : s6.g = { s.g with strings := (scanTexts s3.rest).1 } := by rw [b6, b5, hg3, hs, List.nil_append]
  rw [hg6] at h
  by_cases he : (scanTexts s3.rest).1 = []
  · rw [if_pos he] at h
    cases h
  · rw [if_neg he] at h
    rw [run_assign] at h
    cases h
    refine ⟨_, he, ?_, ?_⟩
    · have ht' := ht
      have a5' : (scanTexts s3.rest).2 = .mark ')' :: s5.rest := a5
      rw [a5', a6] at ht'
      rw [a1, a2, a3]
      simp only [NodeField.lexemes, List.append_assoc, List.cons_append, List.nil_append]
      exact congrArg (fun l => _ :: _ :: _ :: l) ht'
    · show _ = _
      rw [hg6]
      simp only [← hs]

theorem textDecl_inv {k : Keyword} {s s' : PState K} {w : List Char} (h : textDeclaration k s = ok (some w, s')) :
    s.rest = .key k :: .mark '=' :: .text w :: .mark ';' :: s'.rest ∧ s'.g = s.g := by
  unfold textDeclaration at h
  replace h := bind_some_inv h; obtain ⟨_, s1, h1, h⟩ := h
  replace h := bind_some_inv h; obtain ⟨_, s2, h2, h⟩ := h
  replace h := bind_some_inv h; obtain ⟨v, s3, h3, h⟩ := h
  replace h := bind_some_inv h; obtain ⟨_, s4, h4, h⟩ := h
  cases h
  obtain ⟨a1, b1⟩ := expect_inv h1
  obtain ⟨a2, b2⟩ := expect_inv h2
  obtain ⟨a3, b3⟩ := text_inv h3
  obtain ⟨a4, b4⟩ := expect_inv h4
  exact ⟨by rw [a1, a2, a3, a4], by rw [b4, b3, b2, b1]⟩

theorem pairDecl_inv {num : Numerals K} {k : Keyword} {s s' : PState K} {p : Nat × Nat} (h : pairDeclaration num k s = ok (some p, s')) :
    ∃ x y, s.rest = .key k :: .mark '=' :: .mark '(' :: .number x :: .number y :: .mark ')' :: .mark ';' :: s'.rest ∧ num.int x = some p.1 ∧ num.int y = some p.2 ∧ s'.g = s.g := by
  unfold pairDeclaration at h
  replace h := bind_some_inv h; obtain ⟨_, s1, h1, h⟩ := h
  replace h := bind_some_inv h; obtain ⟨_, s2, h2, h⟩ := h
  replace h := bind_some_inv h; obtain ⟨_, s3, h3, h⟩ := h
  replace h := bind_some_inv h; obtain ⟨x, s4, h4, h⟩ := h
  replace h := bind_some_inv h; obtain ⟨y, s5, h5, h⟩ := h
  replace h := bind_some_inv h; obtain ⟨_, s6, h6, h⟩ := h
  replace h := bind_some_inv h; obtain ⟨_, s7, h7, h⟩ := h
  obtain ⟨a1, b1⟩ := expect_inv h1
  obtain ⟨a2, b2⟩ := expect_inv h2
  obtain ⟨a3, b3⟩ := expect_inv h3
  obtain ⟨a4, b4⟩ := number_inv h4
  obtain ⟨a5, b5⟩ := number_inv h5
  obtain ⟨a6, b6⟩ := expect_inv h6
  obtain ⟨a7, b7⟩ := expect_inv h7
  cases hu : num.int x with
  | none => rw [hu] at h; cases h
  | some u =>
    cases hv : num.int y with
    | none => rw [hu, hv] at h; cases h
    | some v =>
      rw [hu, hv] at h
      cases h
      exact ⟨x, y, by rw [a1, a2, a3, a4, a5, a6, a7], hu, hv, by rw [b7, b6, b5, b4, b3, b2, b1]⟩

theorem after_strings (num : Numerals K) (fs : List NodeField) : ∀ g : Statics K, (afterFields num g fs).strings = g.strings := by
  induction fs with
  | nil => intro g; rfl
  | cons f fs ih => intro g; cases f <;> simp only [afterFields, ih]

theorem nodeParams_inv (num : Numerals K) : ∀ (fuel : Nat) {s s' : PState K} {a : Unit}, s.g.strings = [] → nodeParams num fuel s = ok (some a, s') →
    ∃ fs : List NodeField, s.rest = fs.flatMap NodeField.lexemes ++ s'.rest ∧ s'.g = afterFields num s.g fs ∧ ∀ f ∈ fs, NodeField.Readable num f
  | 0, _, _, _, _, h => by cases h
  | fuel + 1, s, s', a, hs, h => by
    unfold nodeParams at h
    rw [run_some (run_peek _)] at h
    have stop : (Pure.pure () : Parse K Unit) s = ok (some a, s') →
        ∃ fs : List NodeField, s.rest = fs.flatMap NodeField.lexemes ++ s'.rest ∧ s'.g = afterFields num s.g fs ∧ ∀ f ∈ fs, NodeField.Readable num f := by
      intro h
      cases h
      exact ⟨[], rfl, rfl, by simp⟩
    cases hq : s.rest.head? with
    | none => rw [hq] at h; exact stop h
    | some t =>
      rw [hq] at h
      cases t with
      | name w =>
        replace h := bind_some_inv h; obtain ⟨_, s1, h1, h⟩ := h
        obtain ⟨n, v, a1, b1⟩ := unknown_inv h1
        obtain ⟨fs, e1, e2, e3⟩ := nodeParams_inv num fuel (by rw [b1]; exact hs) h
        refine ⟨.other n v :: fs, ?_, ?_, ?_⟩
        · rw [a1, e1]; simp [NodeField.lexemes]
        · rw [e2, b1]; rfl
        · simp only [List.mem_cons, forall_eq_or_imp]; exact ⟨trivial, e3⟩
      | key k =>
        cases k with
        | states =>
          replace h := bind_some_inv h; obtain ⟨_, s1, h1, h⟩ := h
          obtain ⟨ns, a0, a1, b1⟩ := states_inv h1 hs
          obtain ⟨fs, e1, e2, e3⟩ := nodeParams_inv num fuel (by rw [b1]; exact hs) h
          refine ⟨.states ns :: fs, ?_, ?_, ?_⟩
          · rw [a1, e1]; simp
          · rw [e2, b1]; rfl
          · simp only [List.mem_cons, forall_eq_or_imp]; exact ⟨a0, e3⟩
        | label =>
          replace h := bind_some_inv h; obtain ⟨w, s1, h1, h⟩ := h
          replace h := bind_some_inv h; obtain ⟨_, s2, h2, h⟩ := h
          obtain ⟨a1, b1⟩ := textDecl_inv h1
          obtain ⟨fs, e1, e2, e3⟩ := nodeParams_inv num fuel (by rw [b1]; exact hs) h2
          rw [run_assign] at h
          cases h
          refine ⟨.label w :: fs, ?_, ?_, ?_⟩
          · rw [a1, e1]; simp [NodeField.lexemes]
          · simp only [e2, b1]; rfl
          · simp only [List.mem_cons, forall_eq_or_imp]; exact ⟨trivial, e3⟩
        | next =>
          replace h := bind_some_inv h; obtain ⟨w, s1, h1, h⟩ := h
          replace h := bind_some_inv h; obtain ⟨_, s2, h2, h⟩ := h
          obtain ⟨a1, b1⟩ := textDecl_inv h1
          obtain ⟨fs, e1, e2, e3⟩ := nodeParams_inv num fuel (by rw [b1]; exact hs) h2
          rw [run_assign] at h
          cases h
          refine ⟨.next w :: fs, ?_, ?_, ?_⟩
          · rw [a1, e1]; simp [NodeField.lexemes]
          · simp only [e2, b1]; rfl
          · simp only [List.mem_cons, forall_eq_or_imp]; exact ⟨trivial, e3⟩
        | position =>
          replace h := bind_some_inv h; obtain ⟨p, s1, h1, h⟩ := h
          replace h := bind_some_inv h; obtain ⟨_, s2, h2, h⟩ := h
          obtain ⟨x, y, a1, x1, y1, b1⟩ := pairDecl_inv h1
          rw [run_assign] at h2
          cases h2
          obtain ⟨fs, e1, e2, e3⟩ := nodeParams_inv num fuel (by simp only [b1]; exact hs) h
          refine ⟨.position x y :: fs, ?_, ?_, ?_⟩
          · simp only at e1
            rw [a1, e1]; simp [NodeField.lexemes]
          · rw [e2, afterFields, x1, y1, b1]
            rfl
          · simp only [List.mem_cons, forall_eq_or_imp]; exact ⟨⟨by rw [x1]; rfl, by rw [y1]; rfl⟩, e3⟩
        | _ => exact stop h
      | _ => exact stop h

theorem fields_gen (num : Numerals K) (fs : List NodeField) : ∀ (g : Statics K),
    afterFields num g fs = { g with
      states := (fs.filterMap NodeField.statesOf).getLast?.or g.states
      label := ((fs.findSome? NodeField.labelOf).map Ptr.live).getD g.label
      persistence := (fs.findSome? NodeField.nextOf).or g.persistence
      posX := ((fs.filterMap NodeField.positionOf).getLast?.map (fun p => (num.int p.1).getD 0)).getD g.posX
      posY := ((fs.filterMap NodeField.positionOf).getLast?.map (fun p => (num.int p.2).getD 0)).getD g.posY } := by
  induction fs with
  | nil => intro g; rfl
  | cons f fs ih =>
    intro g
    cases f with
    | states ns =>
      rw [afterFields, ih]
      simp only [List.findSome?_cons, List.filterMap_cons, NodeField.statesOf, NodeField.labelOf, NodeField.nextOf, NodeField.positionOf, List.getLast?_cons]
      cases (fs.filterMap NodeField.statesOf).getLast? <;> rfl
    | position x y =>
      rw [afterFields, ih]
      simp only [List.findSome?_cons, List.filterMap_cons, NodeField.statesOf, NodeField.labelOf, NodeField.nextOf, NodeField.positionOf, List.getLast?_cons]
      cases (fs.filterMap NodeField.positionOf).getLast? <;> rfl
    | label w =>
      rw [afterFields, ih]
      simp [List.findSome?_cons, NodeField.statesOf, NodeField.labelOf, NodeField.nextOf, NodeField.positionOf]
    | next w =>
      rw [afterFields, ih]
      simp [List.findSome?_cons, NodeField.statesOf, NodeField.labelOf, NodeField.nextOf, NodeField.positionOf]
    | other m v =>
      rw [afterFields, ih]
      simp [List.findSome?_cons, NodeField.statesOf, NodeField.labelOf, NodeField.nextOf, NodeField.positionOf]

/-- the variable made from a node that is accepted -/
def madeRec (num : Numerals K) (id : Nat) (n : NodeText) : NodeRec :=
  { id := id, symbol := cutText n.name, label := cutText (n.label.getD " ".toList), states := (n.lastStates.getD []).map cutText
    posX := (n.lastPosition.map (fun p => (num.int p.1).getD 0)).getD 100, posY := (n.lastPosition.map (fun p => (num.int p.2).getD 0)).getD 100 }

/-- the variables made from nodes that are accepted -/
def madeFrom (num : Numerals K) : Nat → List NodeText → List NodeRec
  | _, [] => []
  | i, n :: ns => madeRec num i n :: madeFrom num (i + 1) ns

/-- a node that is accepted -/
structure AcceptedNode (num : Numerals K) (n : NodeText) : Prop where
  readable : ∀ f ∈ n.fields, NodeField.Readable num f
  states : n.lastStates.isSome

/-- between two nodes; no label is left over -/
structure Idle (g : Statics K) : Prop extends Between g where
  label : ∀ w, g.label ≠ .live w

/-- the static variables after nodes that were accepted -/
def afterAccepted (num : Numerals K) (g : Statics K) (ns : List NodeText) (l : Ptr (List Char)) : Statics K :=
  { g with nextId := g.nextId + ns.length, vars := g.vars.add (madeFrom num g.nextId ns), links := g.links.add (linksFrom g.nextId ns), label := l }

theorem finishNode_inv (num : Numerals K) {s s' : PState K} {a : Unit} {g : Statics K} (hg : Idle g) {n : NodeText} (hs : s.g = afterFields num g n.fields)
    (h : finishNode n.name s = ok (some a, s')) :
    n.lastStates.isSome ∧ s'.rest = s.rest ∧ ∃ l, s'.g = afterAccepted num g [n] l ∧ Idle s'.g := by
  rw [fields_gen] at hs
  unfold finishNode at h
  rw [run_some (run_statics _)] at h
  replace h := bind_some_inv h; obtain ⟨lbl, s1, h1, h⟩ := h
  have hl : lbl = n.label.getD " ".toList ∧ s1 = s := by
    rw [hs] at h1
    simp only at h1
    unfold NodeText.label
    cases hq : n.fields.findSome? NodeField.labelOf with
    | some w =>
      rw [hq] at h1
      simp only [Option.map_some, Option.getD_some] at h1
      cases h1
      exact ⟨rfl, rfl⟩
    | none =>
      rw [hq] at h1
      simp only [Option.map_none, Option.getD_none] at h1
      cases hw : g.label with
      | null => rw [hw] at h1; cases h1; exact ⟨rfl, rfl⟩
      | live w => exact absurd hw (hg.label w)
      | freed => rw [hw] at h1; cases h1
  obtain ⟨rfl, rfl⟩ := hl
  have hst : s1.g.states = n.lastStates := by
    rw [hs]
    simp only [hg.states, Option.or_none]
    rfl
  rw [hst] at h
  cases hls : n.lastStates with
  | none =>
    rw [hls] at h
    simp only at h
    rw [run_some (run_assign _ _)] at h
    cases h
  | some states =>
    rw [hls] at h
    simp only at h
    replace h := bind_some_inv h; obtain ⟨vars, s2, h2, h⟩ := h
    replace h := bind_some_inv h; obtain ⟨links, s3, h3, h⟩ := h
    rw [run_assign] at h
    cases h
    have hvars : s1.g.vars = g.vars := by rw [hs]
    have hlinks : s1.g.links = g.links := by rw [hs]
    have hid : s1.g.nextId = g.nextId := by rw [hs]
    have hpers : s1.g.persistence = n.next := by
      rw [hs]
      simp only [hg.persistence, Option.or_none]
      rfl
    rw [hvars] at h2
    have e2 : s2 = s1 ∧ Ptr.live vars = g.vars.add [madeRec num g.nextId n] := by
      have hrec : ({ id := s1.g.nextId, symbol := cutText n.name, label := cutText (n.label.getD " ".toList), states := states.map cutText, posX := s1.g.posX, posY := s1.g.posY } : NodeRec) =
          madeRec num g.nextId n := by
        unfold madeRec
        rw [hls, hs]
        simp only [hg.posX, hg.posY]
        rfl
      rw [hrec] at h2
      cases hv : g.vars with
      | null => rw [hv] at h2; cases h2; exact ⟨rfl, rfl⟩
      | live l => rw [hv] at h2; cases h2; exact ⟨rfl, rfl⟩
      | freed => exact absurd hv hg.vars
    obtain ⟨rfl, e2⟩ := e2
    have e3 : s3 = s2 ∧ links = g.links.add (n.next.map (fun w => (g.nextId, w))).toList := by
      rw [hpers, hlinks, hid] at h3
      cases hn : n.next with
      | none =>
        rw [hn] at h3
        cases h3
        exact ⟨rfl, rfl⟩
      | some w =>
        rw [hn] at h3
        cases hv : g.links with
        | null => rw [hv] at h3; cases h3; exact ⟨rfl, rfl⟩
        | live l => rw [hv] at h3; cases h3; exact ⟨rfl, rfl⟩
        | freed => exact absurd hv hg.links
    obtain ⟨rfl, rfl⟩ := e3
    have heq : ({ s3.g with nextId := s3.g.nextId + 1, posX := 100, posY := 100, vars := Ptr.live vars, label := s3.g.label.free, states := none
                            links := g.links.add (n.next.map (fun w => (g.nextId, w))).toList, persistence := none } : Statics K) =
        afterAccepted num g [n] s3.g.label.free := by
      rw [e2]
      unfold afterAccepted
      rw [hs]
      simp only [madeFrom, linksFrom, List.append_nil, List.length_singleton, hg.states, hg.persistence, hg.posX, hg.posY]
    refine ⟨rfl, rfl, s3.g.label.free, heq, ?_⟩
    have hidle : Idle (afterAccepted num g [n] s3.g.label.free) := by
      refine ⟨⟨hg.strings, hg.states, hg.persistence, hg.posX, hg.posY, Ptr.add_freed hg.vars (madeFrom num g.nextId [n]), Ptr.add_freed hg.links (linksFrom g.nextId [n])⟩, ?_⟩
      intro w
      show s3.g.label.free ≠ _
      cases s3.g.label <;> simp [Ptr.free]
    rw [← heq] at hidle
    exact hidle

theorem afterAccepted_add (num : Numerals K) (g : Statics K) (ns ms : List NodeText) (l l' : Ptr (List Char)) :
    afterAccepted num (afterAccepted num g ns l) ms l' = afterAccepted num g (ns ++ ms) l' := by
  have h1 : ∀ (ns : List NodeText) (i : Nat), madeFrom num i (ns ++ ms) = madeFrom num i ns ++ madeFrom num (i + ns.length) ms := by
    intro ns
    induction ns with
    | nil => intro i; rfl
    | cons n ns ih =>
      intro i
      rw [List.cons_append, madeFrom, ih, madeFrom, List.cons_append, List.length_cons]
      congr 3
      omega
  have h2 : ∀ (ns : List NodeText) (i : Nat), linksFrom i (ns ++ ms) = linksFrom i ns ++ linksFrom (i + ns.length) ms := by
    intro ns
    induction ns with
    | nil => intro i; rfl
    | cons n ns ih =>
      intro i
      rw [List.cons_append, linksFrom, ih, linksFrom, List.length_cons, List.append_assoc]
      congr 3
      omega
  unfold afterAccepted
  simp only [Ptr.add_add, ← h1, ← h2, List.length_append, Nat.add_assoc]

theorem nodeDeclaration_inv (num : Numerals K) {fuel : Nat} {k : Keyword} {s s' : PState K} {a : Unit} (hg : Idle s.g) (h : nodeDeclaration num fuel k s = ok (some a, s')) :
    ∃ n : NodeText, s.rest = n.lexemes ++ s'.rest ∧ AcceptedNode num n ∧ ∃ l, s'.g = afterAccepted num s.g [n] l ∧ Idle s'.g := by
  unfold nodeDeclaration at h
  replace h := bind_some_inv h; obtain ⟨_, s1, h1, h⟩ := h
  obtain ⟨a1, b1⟩ := expect_inv h1
  have rest : ∀ (s2 : PState K), s2.g = s.g → (do let n ← takeName
                                                  expect (.mark '{')
                                                  nodeParams num fuel
                                                  expect (.mark '}')
                                                  if k = .node ∨ k = .discrete then finishNode n else unsupported : Parse K Unit) s2 = ok (some a, s') →
      ∃ (w : List Char) (fs : List NodeField), s2.rest = .name w :: .mark '{' :: (fs.flatMap NodeField.lexemes ++ .mark '}' :: s'.rest) ∧ (k = .node ∨ k = .discrete) ∧
        ∀ d, AcceptedNode num ⟨d, w, fs⟩ ∧ ∃ l, s'.g = afterAccepted num s.g [⟨d, w, fs⟩] l ∧ Idle s'.g := by
    intro s2 hs2 h
    replace h := bind_some_inv h; obtain ⟨w, s3, h3, h⟩ := h
    replace h := bind_some_inv h; obtain ⟨_, s4, h4, h⟩ := h
    replace h := bind_some_inv h; obtain ⟨_, s5, h5, h⟩ := h
    replace h := bind_some_inv h; obtain ⟨_, s6, h6, h⟩ := h
    obtain ⟨a3, b3⟩ := name_inv h3
    obtain ⟨a4, b4⟩ := expect_inv h4
    obtain ⟨a6, b6⟩ := expect_inv h6
    have hg4 : s4.g = s.g := by rw [b4, b3, hs2]
    obtain ⟨fs, a5, b5, c5⟩ := nodeParams_inv num fuel (by rw [hg4]; exact hg.strings) h5
    by_cases hk : k = .node ∨ k = .discrete
    · rw [if_pos hk] at h
      refine ⟨w, fs, ?_, hk, fun d => ?_⟩
      · rw [a3, a4, a5, a6]
        congr 4
        obtain ⟨_, e, _⟩ := finishNode_inv num hg (n := ⟨false, w, fs⟩) (by rw [b6, b5, hg4]) h
        rw [e]
      · obtain ⟨e1, _, e3⟩ := finishNode_inv num hg (n := ⟨d, w, fs⟩) (by rw [b6, b5, hg4]) h
        exact ⟨⟨c5, e1⟩, e3⟩
    · rw [if_neg hk] at h
      unfold unsupported at h
      rw [run_some (run_statics _)] at h
      exfalso
      cases hl : s6.g.label <;> rw [hl] at h
      · replace h := bind_some_inv h; obtain ⟨_, _, _, h⟩ := h; cases h
      · replace h := bind_some_inv h; obtain ⟨_, _, _, h⟩ := h; cases h
      · cases h
  by_cases hk : k = .discrete ∨ k = .continuous
  · rw [if_pos hk] at h
    replace h := bind_some_inv h; obtain ⟨_, s2, h2, h⟩ := h
    obtain ⟨a2, b2⟩ := expect_inv h2
    obtain ⟨w, fs, e1, e2, e3⟩ := rest s2 (by rw [b2, b1]) h
    have : k = .discrete := by
      rcases hk with hk | hk
      · exact hk
      · subst hk
        rcases e2 with e2 | e2 <;> cases e2
    subst this
    refine ⟨⟨true, w, fs⟩, ?_, e3 true⟩
    rw [a1, a2, e1]
    simp [NodeText.lexemes]
  · rw [if_neg hk] at h
    obtain ⟨w, fs, e1, e2, e3⟩ := rest s1 b1 h
    have : k = .node := by
      rcases e2 with e2 | e2
      · exact e2
      · exact absurd (Or.inl e2) hk
    subst this
    refine ⟨⟨false, w, fs⟩, ?_, e3 false⟩
    rw [a1, e1]
    simp [NodeText.lexemes]

theorem nodes_inv (num : Numerals K) : ∀ (fuel : Nat) {s s' : PState K} {a : Unit}, Idle s.g → nodes num fuel s = ok (some a, s') →
    ∃ ns : List NodeText, s.rest = ns.flatMap NodeText.lexemes ++ s'.rest ∧ (∀ n ∈ ns, AcceptedNode num n) ∧ (∃ l, s'.g = afterAccepted num s.g ns l) ∧ ∃ vs, s'.g.vars = .live vs
  | 0, _, _, _, _, h => by cases h
  | fuel + 1, s, s', a, hg, h => by
    unfold nodes at h
    rw [run_some (run_peek _)] at h
    have stop : nodes.stop s = ok (some a, s') → ∃ ns : List NodeText, s.rest = ns.flatMap NodeText.lexemes ++ s'.rest ∧ (∀ n ∈ ns, AcceptedNode num n) ∧
        (∃ l, s'.g = afterAccepted num s.g ns l) ∧ ∃ vs, s'.g.vars = .live vs := by
      intro h
      unfold nodes.stop at h
      rw [run_some (run_statics _)] at h
      cases hv : s.g.vars with
      | null => rw [hv] at h; cases h
      | freed => rw [hv] at h; cases h
      | live vs =>
        rw [hv] at h
        cases h
        refine ⟨[], rfl, by simp, ⟨s.g.label, ?_⟩, vs, hv⟩
        simp only [afterAccepted, madeFrom, linksFrom, Ptr.add_nil, List.length_nil, Nat.add_zero]
    cases hq : s.rest.head? with
    | none => rw [hq] at h; exact stop h
    | some t =>
      rw [hq] at h
      cases t with
      | key k =>
        simp only at h
        by_cases hk : k = .node ∨ k = .discrete ∨ k = .continuous ∨ k = .utility ∨ k = .decision
        · rw [if_pos hk] at h
          replace h := bind_some_inv h; obtain ⟨_, s1, h1, h⟩ := h
          obtain ⟨n, a1, b1, l, c1, d1⟩ := nodeDeclaration_inv num hg h1
          obtain ⟨ns, a2, b2, ⟨l', c2⟩, d2⟩ := nodes_inv num fuel d1 h
          refine ⟨n :: ns, ?_, ?_, ⟨l', ?_⟩, d2⟩
          · rw [a1, a2]; simp
          · simp only [List.mem_cons, forall_eq_or_imp]
            exact ⟨b1, b2⟩
          · rw [c2, c1, afterAccepted_add]
            rfl
        · rw [if_neg hk] at h
          exact stop h
      | _ => exact stop h

theorem parameters_inv (num : Numerals K) [Field K] [LinearOrder K] : ∀ (fuel : Nat) {s s' : PState K} {a : Unit}, parameters num fuel s = ok (some a, s') →
    ∃ fs : List NetField, s.rest = fs.flatMap NetField.lexemes ++ s'.rest ∧ (∀ x y, .size x y ∈ fs → (num.int x).isSome ∧ (num.int y).isSome) ∧
      ∃ x y, s'.g = { s.g with sizeX := x, sizeY := y }
  | 0, _, _, _, h => by cases h
  | fuel + 1, s, s', a, h => by
    unfold parameters at h
    rw [run_some (run_peek _)] at h
    have stop : (Pure.pure () : Parse K Unit) s = ok (some a, s') → ∃ fs : List NetField, s.rest = fs.flatMap NetField.lexemes ++ s'.rest ∧
        (∀ x y, .size x y ∈ fs → (num.int x).isSome ∧ (num.int y).isSome) ∧ ∃ x y, s'.g = { s.g with sizeX := x, sizeY := y } := by
      intro h
      cases h
      exact ⟨[], rfl, by simp, s.g.sizeX, s.g.sizeY, rfl⟩
    cases hq : s.rest.head? with
    | none => rw [hq] at h; exact stop h
    | some t =>
      rw [hq] at h
      cases t with
      | name w =>
        replace h := bind_some_inv h; obtain ⟨_, s1, h1, h⟩ := h
        obtain ⟨n, v, a1, b1⟩ := unknown_inv h1
        obtain ⟨fs, e1, e2, x, y, e3⟩ := parameters_inv num fuel h
        refine ⟨.other n v :: fs, ?_, ?_, x, y, ?_⟩
        · rw [a1, e1]; simp [NetField.lexemes]
        · simpa using e2
        · rw [e3, b1]
      | key k =>
        cases k with
        | nodeSize =>
          replace h := bind_some_inv h; obtain ⟨p, s1, h1, h⟩ := h
          replace h := bind_some_inv h; obtain ⟨_, s2, h2, h⟩ := h
          obtain ⟨x, y, a1, x1, y1, b1⟩ := pairDecl_inv h1
          rw [run_assign] at h2
          cases h2
          obtain ⟨fs, e1, e2, x', y', e3⟩ := parameters_inv num fuel h
          refine ⟨.size x y :: fs, ?_, ?_, x', y', ?_⟩
          · simp only at e1
            rw [a1, e1]; simp [NetField.lexemes]
          · intro u v huv
            rcases List.mem_cons.1 huv with huv | huv
            · cases huv
              exact ⟨by rw [x1]; rfl, by rw [y1]; rfl⟩
            · exact e2 u v huv
          · rw [e3, b1]
        | _ => exact stop h
      | _ => exact stop h

theorem symbolsFrom_inv (vars : List NodeRec) (l : List Lexeme) : ∀ {g : Statics K} {s' : PState K} {a : Unit}, symbolsFrom vars l g = ok (some a, s') →
    ∃ (ws : List (List Char)) (vs : List Nat), l = ws.map .name ++ s'.rest ∧ List.Forall₂ (fun w v => searchVar vars w = some v) ws vs ∧
      s'.g = (if ws = [] then g else { g with parents := some (vs.reverse ++ g.parents.getD []) }) := by
  induction l with
  | nil =>
    intro g s' a h
    cases h
    exact ⟨[], [], rfl, .nil, rfl⟩
  | cons t r ih =>
    intro g s' a h
    cases t with
    | name w =>
      rw [symbolsFrom] at h
      cases hv : searchVar vars w with
      | none => rw [hv] at h; cases h
      | some v =>
        rw [hv] at h
        obtain ⟨ws, vs, h1, h2, h3⟩ := ih h
        refine ⟨w :: ws, v :: vs, by rw [h1]; rfl, .cons hv h2, ?_⟩
        rw [if_neg (List.cons_ne_nil w ws)]
        by_cases hw : ws = []
        · subst hw
          cases h2
          rw [h3, if_pos rfl]
          rfl
        · rw [h3, if_neg hw]
          simp
    | _ => cases h; exact ⟨[], [], rfl, .nil, rfl⟩

theorem vars_inv {s s' : PState K} {l : List NodeRec} (h : theVars s = ok (some l, s')) : s.g.vars = .live l ∧ s' = s := by
  unfold theVars at h
  rw [run_some (run_statics _)] at h
  cases hv : s.g.vars with
  | live m => rw [hv] at h; cases h; exact ⟨rfl, rfl⟩
  | null => rw [hv] at h; cases h
  | freed => rw [hv] at h; cases h

theorem dataList_inv {num : Numerals K} {s s' : PState K} {d : List K} (h : dataList num s = ok (some d, s')) (hs : s.g.doubles = []) :
    ∃ g : Grouped, s.rest = [.key .data, .mark '=', .mark '('] ++ g.lexemes ++ [.mark ')', .mark ';'] ++ s'.rest ∧ d = g.words.map num.value ∧ g.words ≠ [] ∧ s'.g = s.g := by
  unfold dataList at h
  replace h := bind_some_inv h; obtain ⟨_, s1, h1, h⟩ := h
  replace h := bind_some_inv h; obtain ⟨_, s2, h2, h⟩ := h
  replace h := bind_some_inv h; obtain ⟨_, s3, h3, h⟩ := h
  replace h := bind_some_inv h; obtain ⟨_, s4, h4, h⟩ := h
  replace h := bind_some_inv h; obtain ⟨_, s5, h5, h⟩ := h
  replace h := bind_some_inv h; obtain ⟨_, s6, h6, h⟩ := h
  obtain ⟨a1, b1⟩ := expect_inv h1
  obtain ⟨a2, b2⟩ := expect_inv h2
  obtain ⟨a3, b3⟩ := expect_inv h3
  obtain ⟨a5, b5⟩ := expect_inv h5
  obtain ⟨a6, b6⟩ := expect_inv h6
  have hg3 : s3.g = s.g := by rw [b3, b2, b1]
  unfold numbers at h4
  by_cases hx : (scanNumbers 0 s3.rest).1 = true
  · simp only [hx, if_true] at h4
    obtain ⟨gr, c1, c2⟩ := scan0_inv hx
    have e4 : s4 = { g := { s3.g with doubles := s3.g.doubles ++ (scanNumbers 0 s3.rest).2.1.map num.value }, rest := (scanNumbers 0 s3.rest).2.2 } := by
      cases h4
      rfl
    rw [c2, hg3, hs, List.nil_append] at e4
    have hg6 : s6.g = { s.g with doubles := gr.words.map num.value } := by rw [b6, b5, e4]
    rw [run_some (run_statics _), hg6] at h
    simp only at h
    have a4 : s4.rest = (scanNumbers 0 s3.rest).2.2 := by rw [e4]
    cases hw : gr.words.map num.value with
    | nil => rw [hw] at h; cases h
    | cons x xs =>
      rw [hw] at h
      simp only at h
      rw [run_some (run_assign _ _)] at h
      cases h
      refine ⟨gr, ?_, hw.symm, ?_, ?_⟩
      · rw [a1, a2, a3, c1, ← a4, a5, a6]
        simp
      · intro hn
        rw [hn] at hw
        cases hw
      · show _ = _
        rw [hg6]
        simp only [← hs]
  · simp only [hx] at h4
    cases h4

section
variable [Field K] [LinearOrder K]

/-- a potential that is accepted, with the table made from it -/
def PotAccepted (num : Numerals K) (recs : List NodeRec) (p : PotText) (q : Parsed K) : Prop :=
  ∃ (c : Nat) (vs : Option (List Nat)), searchVar recs p.child = some c ∧ Option.Rel (List.Forall₂ (fun w v => searchVar recs w = some v)) p.parents vs ∧
    p.parents ≠ some [] ∧ (∀ g, p.data = some g → g.words ≠ []) ∧ potentialDeclaration (cardOf recs) c vs (p.data.map (fun g => g.words.map num.value)) = ok (some q)

theorem run_inv {x : Res α} {s s' : PState K} {a : α} (h : Parse.run x s = ok (some a, s')) : x = ok a ∧ s' = s := by
  cases x with
  | ub => cases h
  | ok b => cases h; exact ⟨rfl, rfl⟩

theorem addPotential_inv {q : Parsed K} {s s' : PState K} {a : Unit} (h : addPotential q s = ok (some a, s')) :
    s'.rest = s.rest ∧ s'.g = { s.g with pots := s.g.pots.add [q] } ∧ s.g.pots ≠ .freed := by
  unfold addPotential at h
  rw [run_some (run_statics _)] at h
  cases hp : s.g.pots with
  | null => rw [hp] at h; cases h; exact ⟨rfl, rfl, by simp⟩
  | live l => rw [hp] at h; cases h; exact ⟨rfl, rfl, by simp⟩
  | freed => rw [hp] at h; cases h

theorem finishPotential_inv {recs : List NodeRec} {child : Option Nat} {bar : Bool} {data : Option (List K)} {s s' : PState K} {a : Unit} (hv : s.g.vars = .live recs)
    (h : finishPotential child bar data s = ok (some a, s')) :
    ¬ (bar = true ∧ s.g.parents.getD [] = []) ∧ ∃ c q, child = some c ∧
      potentialDeclaration (cardOf recs) c (if bar then some (s.g.parents.getD []).reverse else none) data = ok (some q) ∧ s'.rest = s.rest ∧
      s.g.pots ≠ .freed ∧ s'.g = { s.g with pots := s.g.pots.add [q], parents := if bar then none else s.g.parents } := by
  unfold finishPotential at h
  replace h := bind_some_inv h; obtain ⟨vars, s1, h1, h⟩ := h
  obtain ⟨e1, rfl⟩ := vars_inv h1
  rw [hv] at e1
  cases e1
  rw [run_some (run_statics _)] at h
  by_cases hb : bar = true ∧ s1.g.parents.getD [] = []
  · rw [if_pos hb] at h
    cases h
  · rw [if_neg hb] at h
    refine ⟨hb, ?_⟩
    cases child with
    | none => cases h
    | some c =>
      simp only at h
      replace h := bind_some_inv h; obtain ⟨q, s2, h2, h⟩ := h
      obtain ⟨e2, rfl⟩ := run_inv h2
      cases q with
      | none => cases h
      | some q =>
        simp only at h
        replace h := bind_some_inv h; obtain ⟨_, s3, h3, h⟩ := h
        obtain ⟨a3, b3, c3⟩ := addPotential_inv h3
        cases bar with
        | true =>
          rw [if_pos rfl, run_assign] at h
          cases h
          exact ⟨c, q, rfl, e2, a3, c3, by simp only [b3]; rfl⟩
        | false =>
          rw [if_neg (by simp)] at h
          cases h
          exact ⟨c, q, rfl, e2, a3, c3, b3⟩

theorem potentialBody_inv {num : Numerals K} {recs : List NodeRec} {child : Option Nat} {bar : Bool} {s s' : PState K} {a : Unit} (hv : s.g.vars = .live recs)
    (hd : s.g.doubles = []) (h : potentialBody num child bar s = ok (some a, s')) :
    ¬ (bar = true ∧ s.g.parents.getD [] = []) ∧ ∃ (gr : Option Grouped) (c : Nat) (q : Parsed K), child = some c ∧ (∀ g, gr = some g → g.words ≠ []) ∧
      s.rest = .mark ')' :: .mark '{' :: (dataLexemes gr ++ .mark '}' :: s'.rest) ∧
      potentialDeclaration (cardOf recs) c (if bar then some (s.g.parents.getD []).reverse else none) (gr.map (fun g => g.words.map num.value)) = ok (some q) ∧
      s.g.pots ≠ .freed ∧ s'.g = { s.g with pots := s.g.pots.add [q], parents := if bar then none else s.g.parents } := by
  unfold potentialBody at h
  replace h := bind_some_inv h; obtain ⟨_, s1, h1, h⟩ := h
  replace h := bind_some_inv h; obtain ⟨_, s2, h2, h⟩ := h
  obtain ⟨a1, b1⟩ := expect_inv h1
  obtain ⟨a2, b2⟩ := expect_inv h2
  have hg2 : s2.g = s.g := by rw [b2, b1]
  rw [run_some (run_peek _)] at h
  have none_case : (do expect (.mark '}')
                       finishPotential child bar none : Parse K Unit) s2 = ok (some a, s') → ¬ (bar = true ∧ s.g.parents.getD [] = []) ∧
      ∃ (gr : Option Grouped) (c : Nat) (q : Parsed K), child = some c ∧ (∀ g, gr = some g → g.words ≠ []) ∧
      s.rest = .mark ')' :: .mark '{' :: (dataLexemes gr ++ .mark '}' :: s'.rest) ∧
      potentialDeclaration (cardOf recs) c (if bar then some (s.g.parents.getD []).reverse else none) (gr.map (fun g => g.words.map num.value)) = ok (some q) ∧
      s.g.pots ≠ .freed ∧ s'.g = { s.g with pots := s.g.pots.add [q], parents := if bar then none else s.g.parents } := by
    intro h
    replace h := bind_some_inv h; obtain ⟨_, s3, h3, h⟩ := h
    obtain ⟨a3, b3⟩ := expect_inv h3
    have hg3 : s3.g = s.g := by rw [b3, hg2]
    obtain ⟨e0, c, q, e1, e2, e3, e4, e5⟩ := finishPotential_inv (by rw [hg3]; exact hv) h
    rw [hg3] at e0 e2 e4 e5
    exact ⟨e0, none, c, q, e1, by simp, by rw [a1, a2, a3, e3]; rfl, e2, e4, e5⟩
  cases hq : s2.rest.head? with
  | none => rw [hq] at h; exact none_case h
  | some t =>
    rw [hq] at h
    cases t with
    | key k =>
      cases k with
      | data =>
        replace h := bind_some_inv h; obtain ⟨d, s3, h3, h⟩ := h
        replace h := bind_some_inv h; obtain ⟨_, s4, h4, h⟩ := h
        obtain ⟨gr, a3, e3, n3, b3⟩ := dataList_inv h3 (by rw [hg2]; exact hd)
        obtain ⟨a4, b4⟩ := expect_inv h4
        have hg4 : s4.g = s.g := by rw [b4, b3, hg2]
        obtain ⟨e0, c, q, e1, e2, e5, e6, e7⟩ := finishPotential_inv (by rw [hg4]; exact hv) h
        rw [hg4] at e0 e2 e6 e7
        refine ⟨e0, some gr, c, q, e1, ?_, ?_, ?_, e6, e7⟩
        · intro g hg
          cases hg
          exact n3
        · rw [a1, a2, a3, a4, e5]
          simp [dataLexemes]
        · rw [e3] at e2
          exact e2
      | _ => exact none_case h
    | _ => exact none_case h

theorem potentialRule_inv {num : Numerals K} {recs : List NodeRec} {s s' : PState K} {a : Unit} (hv : s.g.vars = .live recs) (hd : s.g.doubles = []) (hp : s.g.parents = none)
    (h : potentialRule num s = ok (some a, s')) :
    ∃ (p : PotText) (q : Parsed K), s.rest = p.lexemes ++ s'.rest ∧ PotAccepted num recs p q ∧ s.g.pots ≠ .freed ∧ s'.g = { s.g with pots := s.g.pots.add [q] } := by
  unfold potentialRule at h
  replace h := bind_some_inv h; obtain ⟨_, s1, h1, h⟩ := h
  replace h := bind_some_inv h; obtain ⟨_, s2, h2, h⟩ := h
  replace h := bind_some_inv h; obtain ⟨n, s3, h3, h⟩ := h
  replace h := bind_some_inv h; obtain ⟨vars, s4, h4, h⟩ := h
  obtain ⟨a1, b1⟩ := expect_inv h1
  obtain ⟨a2, b2⟩ := expect_inv h2
  obtain ⟨a3, b3⟩ := name_inv h3
  have hg3 : s3.g = s.g := by rw [b3, b2, b1]
  obtain ⟨e4, e4'⟩ := vars_inv h4
  rw [hg3, hv] at e4
  cases e4
  subst e4'
  rw [run_some (run_peek _)] at h
  by_cases hb : s4.rest.head? = some (.mark '|')
  · rw [if_pos hb] at h
    replace h := bind_some_inv h; obtain ⟨_, s5, h5, h⟩ := h
    replace h := bind_some_inv h; obtain ⟨_, s6, h6, h⟩ := h
    obtain ⟨a5, b5⟩ := expect_inv h5
    have hg5 : s5.g = s.g := by rw [b5, hg3]
    unfold symbols at h6
    replace h6 := bind_some_inv h6; obtain ⟨vars', s7, h7, h6⟩ := h6
    obtain ⟨e7, e7'⟩ := vars_inv h7
    rw [hg5, hv] at e7
    cases e7
    subst e7'
    obtain ⟨ws, vs, c1, c2, c3⟩ := symbolsFrom_inv recs _ h6
    rw [hg5] at c3
    have hg6 : s6.g.vars = .live recs ∧ s6.g.doubles = [] ∧ s6.g.pots = s.g.pots := by
      rw [c3]
      split
      · exact ⟨hv, hd, rfl⟩
      · exact ⟨hv, hd, rfl⟩
    obtain ⟨f0, gr, c, q, f1, f2, f3, f4, f5, f6⟩ := potentialBody_inv hg6.1 hg6.2.1 h
    have hws : ws ≠ [] := by
      intro hw
      rw [if_pos hw] at c3
      exact f0 ⟨rfl, by rw [c3, hp]; rfl⟩
    rw [if_neg hws] at c3
    have hpar : (s6.g.parents.getD []).reverse = vs := by
      rw [c3]
      simp [hp]
    refine ⟨⟨n, some ws, gr⟩, q, ?_, ⟨c, some vs, f1, .some c2, by simpa using hws, f2, ?_⟩, ?_, ?_⟩
    · rw [a1, a2, a3, a5, c1, f3]
      simp [PotText.lexemes, parentLexemes]
    · rw [if_pos rfl, hpar] at f4
      exact f4
    · rw [← hg6.2.2]; exact f5
    · rw [f6, c3]
      simp only [if_pos, ← hp]
  · rw [if_neg hb] at h
    obtain ⟨f0, gr, c, q, f1, f2, f3, f4, f5, f6⟩ := potentialBody_inv (by rw [hg3]; exact hv) (by rw [hg3]; exact hd) h
    refine ⟨⟨n, none, gr⟩, q, ?_, ⟨c, none, f1, .none, by simp, f2, ?_⟩, ?_, ?_⟩
    · rw [a1, a2, a3, f3]
      simp [PotText.lexemes, parentLexemes]
    · rw [if_neg (by simp)] at f4
      exact f4
    · rw [← hg3]; exact f5
    · rw [f6, hg3]
      simp

theorem potentials_inv {num : Numerals K} {recs : List NodeRec} : ∀ (fuel : Nat) {s s' : PState K} {a : Unit}, s.g.vars = .live recs → s.g.doubles = [] → s.g.parents = none →
    potentials num fuel s = ok (some a, s') →
    ∃ (ps : List PotText) (qs : List (Parsed K)), s.rest = ps.flatMap PotText.lexemes ++ s'.rest ∧ List.Forall₂ (PotAccepted num recs) ps qs ∧
      s'.g = { s.g with pots := s.g.pots.add qs }
  | 0, _, _, _, _, _, _, h => by cases h
  | fuel + 1, s, s', a, hv, hd, hp, h => by
    unfold potentials at h
    rw [run_some (run_peek _)] at h
    have stop : (Pure.pure () : Parse K Unit) s = ok (some a, s') → ∃ (ps : List PotText) (qs : List (Parsed K)), s.rest = ps.flatMap PotText.lexemes ++ s'.rest ∧
        List.Forall₂ (PotAccepted num recs) ps qs ∧ s'.g = { s.g with pots := s.g.pots.add qs } := by
      intro h
      cases h
      exact ⟨[], [], rfl, .nil, by simp only [Ptr.add_nil]⟩
    cases hq : s.rest.head? with
    | none => rw [hq] at h; exact stop h
    | some t =>
      rw [hq] at h
      cases t with
      | key k =>
        cases k with
        | potential =>
          replace h := bind_some_inv h; obtain ⟨_, s1, h1, h⟩ := h
          obtain ⟨p, q, a1, b1, _, c1⟩ := potentialRule_inv hv hd hp h1
          obtain ⟨ps, qs, a2, b2, c2⟩ := potentials_inv fuel (by rw [c1]; exact hv) (by rw [c1]; exact hd) (by rw [c1]; exact hp) h
          refine ⟨p :: ps, q :: qs, ?_, .cons b1 b2, ?_⟩
          · rw [a1, a2]; simp
          · rw [c2, c1]
            simp only [Ptr.add_add]
            rfl
        | _ => exact stop h
      | _ => exact stop h

theorem finishInput_inv {ptr : Nat} {s s' : PState K} {r : ReadModel K} (h : finishInput ptr s = ok (some r, s')) :
    s'.rest = s.rest ∧ ∃ vars pots next, s.g.vars = .live vars ∧ s.g.pots = .live pots ∧ allLinks vars s.g.links = ok (some next) ∧ r.nodes = vars ∧
      r.file = { vars := vars.map (fun v => v.id), card := cardOf vars, next := next, pots := pots } ∧ NetFile.build ptr r.file = ok (some r.model) := by
  unfold finishInput at h
  replace h := bind_some_inv h; obtain ⟨vars, s1, h1, h⟩ := h
  obtain ⟨e1, rfl⟩ := vars_inv h1
  rw [run_some (run_statics _)] at h
  cases hp : s1.g.pots with
  | null => rw [hp] at h; cases h
  | freed => rw [hp] at h; cases h
  | live pots =>
    rw [hp] at h
    simp only at h
    cases hg : NetFile.toGraph { vars := vars.map (fun v => v.id), card := cardOf vars, next := fun _ => none, pots := pots } with
    | ub => rw [hg] at h; cases h
    | ok gr =>
      rw [hg] at h
      cases gr with
      | none => cases h
      | some gr =>
        cases hl : allLinks vars s1.g.links with
        | ub => rw [hl] at h; cases h
        | ok nx =>
          rw [hl] at h
          cases nx with
          | none => cases h
          | some nx =>
            simp only at h
            cases hb : NetFile.build ptr { vars := vars.map (fun v => v.id), card := cardOf vars, next := nx, pots := pots } with
            | ub => rw [hb] at h; cases h
            | ok m =>
              rw [hb] at h
              cases m with
              | none => cases h
              | some m =>
                cases h
                exact ⟨rfl, vars, pots, nx, e1, rfl, hl, rfl, rfl, hb⟩

/-- What an accepted file says, and the model made from it. -/
structure Accepted (num : Numerals K) (base : Nat) (d : NetText) (r : ReadModel K) : Prop where
  nonempty : d.nodes ≠ []
  potsNonempty : d.pots ≠ []
  nodes : ∀ n ∈ d.nodes, AcceptedNode num n
  sizes : ∀ x y, .size x y ∈ d.frame.fields → (num.int x).isSome ∧ (num.int y).isSome
  recs : r.nodes = madeFrom num base d.nodes
  pots : List.Forall₂ (PotAccepted num r.nodes) d.pots r.file.pots
  vars : r.file.vars = r.nodes.map (fun v => v.id)
  card : r.file.card = cardOf r.nodes
  next : linkVars r.nodes (linksFrom base d.nodes) (fun _ => none) = ok (some r.file.next)

/-- nodes, potentials and the action at the end -/
theorem body_inv {num : Numerals K} {ptr fuel : Nat} {s0 s1 s2 s3 s4 : PState K} {a b : Unit} {r : ReadModel K} (hi : Idle s0.g) (hd : s0.g.doubles = [])
    (hp : s0.g.parents = none) (hv : s0.g.vars = .null) (hl : s0.g.links = .null) (hpots : s0.g.pots = .null) (h1 : Nip.nodes num fuel s0 = ok (some a, s1))
    (h2 : potentials num fuel s1 = ok (some b, s2)) (h3 : s3.g = s2.g) (h4 : finishInput ptr s3 = ok (some r, s4)) :
    s4.rest = s3.rest ∧ ∃ (ns : List NodeText) (ps : List PotText), s0.rest = ns.flatMap NodeText.lexemes ++ (ps.flatMap PotText.lexemes ++ s2.rest) ∧
      ∀ fr : Frame, (∀ x y, .size x y ∈ fr.fields → (num.int x).isSome ∧ (num.int y).isSome) → Accepted num s0.g.nextId ⟨fr, ns, ps⟩ r := by
  obtain ⟨ns, a1, b1, ⟨l, c1⟩, vs, d1⟩ := nodes_inv num fuel hi h1
  have hvars : s1.g.vars = Ptr.add .null (madeFrom num s0.g.nextId ns) := by
    rw [c1]
    show Ptr.add s0.g.vars _ = _
    rw [hv]
  have hns : madeFrom num s0.g.nextId ns ≠ [] := by
    intro he
    rw [he, Ptr.add_nil, d1] at hvars
    cases hvars
  have hvs : vs = madeFrom num s0.g.nextId ns := by
    rw [d1] at hvars
    unfold Ptr.add at hvars
    rw [if_neg hns] at hvars
    simpa [Ptr.list] using hvars
  have hns' : ns ≠ [] := by
    intro he
    rw [he] at hns
    exact hns rfl
  obtain ⟨ps, qs, a2, b2, c2⟩ := potentials_inv fuel d1 (by rw [c1]; exact hd) (by rw [c1]; exact hp) h2
  obtain ⟨a4, vars, pots, next, e1, e2, e3, e4, e5, _⟩ := finishInput_inv h4
  have hvars3 : vars = vs := by
    rw [h3, c2] at e1
    have : s1.g.vars = .live vars := e1
    rw [d1] at this
    cases this
    rfl
  have hpots3 : Ptr.add .null qs = .live pots := by
    rw [h3, c2, c1] at e2
    have : s0.g.pots.add qs = .live pots := e2
    rwa [hpots] at this
  have hqs : qs ≠ [] := by
    intro he
    rw [he, Ptr.add_nil] at hpots3
    cases hpots3
  have hpots4 : pots = qs := by
    unfold Ptr.add at hpots3
    rw [if_neg hqs] at hpots3
    simpa [Ptr.list] using hpots3.symm
  have hlinks : s3.g.links = Ptr.add .null (linksFrom s0.g.nextId ns) := by
    rw [h3, c2, c1]
    show Ptr.add s0.g.links _ = _
    rw [hl]
  subst hvars3
  subst hpots4
  refine ⟨a4, ns, ps, by rw [a1, a2], fun fr hfr => ⟨hns', ?_, b1, hfr, by rw [e4, hvs], ?_, by rw [e5, e4], by rw [e5, e4], ?_⟩⟩
  · intro he
    have he' : ps = [] := he
    rw [he'] at b2
    cases b2
    exact hqs rfl
  · rw [e5, e4]
    exact b2
  · rw [hlinks] at e3
    show linkVars r.nodes (linksFrom s0.g.nextId ns) (fun _ => none) = _
    rw [e5, e4]
    unfold Ptr.add at e3
    by_cases hl0 : linksFrom s0.g.nextId ns = []
    · rw [if_pos hl0] at e3
      rw [hl0]
      exact e3
    · rw [if_neg hl0] at e3
      exact e3

theorem fresh_idle {g : Statics K} (h : g.Fresh) (x y : Nat) : Idle { g with sizeX := x, sizeY := y } where
  strings := h.strings
  states := h.states
  persistence := h.persistence
  posX := h.posX
  posY := h.posY
  vars := by show g.vars ≠ _; rw [h.vars]; simp
  links := by show g.links ≠ _; rw [h.links]; simp
  label := by intro w; show g.label ≠ _; rw [h.label]; simp

theorem input_inv {num : Numerals K} {ptr fuel : Nat} {s s' : PState K} {r : ReadModel K} (hg : s.g.Fresh) (h : input num ptr fuel s = ok (some r, s')) :
    ∃ d : NetText, s.rest = d.lexemes ∧ Accepted num s.g.nextId d r := by
  unfold input at h
  rw [run_some (run_peek _)] at h
  -- files without a class
  have plain : ∀ (s0 : PState K) (x y : Nat), s0.g = { s.g with sizeX := x, sizeY := y } →
      (do Nip.nodes num fuel
          potentials num fuel
          let last ← readLookahead
          let m ← finishInput ptr
          if last then return m else abort : Parse K (ReadModel K)) s0 = ok (some r, s') →
      ∃ (ns : List NodeText) (ps : List PotText), s0.rest = ns.flatMap NodeText.lexemes ++ ps.flatMap PotText.lexemes ∧
        ∀ fr : Frame, (∀ x y, .size x y ∈ fr.fields → (num.int x).isSome ∧ (num.int y).isSome) → Accepted num s.g.nextId ⟨fr, ns, ps⟩ r := by
    intro s0 x y hs0 h
    replace h := bind_some_inv h; obtain ⟨_, s1, h1, h⟩ := h
    replace h := bind_some_inv h; obtain ⟨_, s2, h2, h⟩ := h
    replace h := bind_some_inv h; obtain ⟨last, s3, h3, h⟩ := h
    replace h := bind_some_inv h; obtain ⟨m, s4, h4, h⟩ := h
    have e3 : s3 = { s2 with rest := s2.rest.tail } ∧ last = s2.rest.isEmpty := by
      unfold readLookahead at h3
      cases h3
      exact ⟨rfl, rfl⟩
    have hlast : last = true ∧ m = r := by
      cases last with
      | true => cases h; exact ⟨rfl, rfl⟩
      | false => cases h
    obtain ⟨hl, rfl⟩ := hlast
    have hrest : s2.rest = [] := by
      rw [e3.2] at hl
      simpa using hl
    obtain ⟨_, ns, ps, f1, f2⟩ := body_inv (by rw [hs0]; exact fresh_idle hg x y) (by rw [hs0]; exact hg.doubles) (by rw [hs0]; exact hg.parents) (by rw [hs0]; exact hg.vars)
      (by rw [hs0]; exact hg.links) (by rw [hs0]; exact hg.pots) h1 h2 (by rw [e3.1]) h4
    rw [hs0] at f2
    rw [hrest, List.append_nil] at f1
    exact ⟨ns, ps, f1, f2⟩
  have bare : (do Nip.nodes num fuel
                  potentials num fuel
                  let last ← readLookahead
                  let m ← finishInput ptr
                  if last then return m else abort : Parse K (ReadModel K)) s = ok (some r, s') → ∃ d : NetText, s.rest = d.lexemes ∧ Accepted num s.g.nextId d r := by
    intro h
    obtain ⟨ns, ps, e1, e2⟩ := plain s s.g.sizeX s.g.sizeY rfl h
    exact ⟨⟨.bare, ns, ps⟩, e1, e2 .bare (by intro x y hxy; cases hxy)⟩
  cases hq : s.rest.head? with
  | none => rw [hq] at h; exact bare h
  | some t =>
    rw [hq] at h
    cases t with
    | key k =>
      cases k with
      | klass =>
        replace h := bind_some_inv h; obtain ⟨_, s1, h1, h⟩ := h
        replace h := bind_some_inv h; obtain ⟨w, s2, h2, h⟩ := h
        replace h := bind_some_inv h; obtain ⟨_, s3, h3, h⟩ := h
        replace h := bind_some_inv h; obtain ⟨_, s4, h4, h⟩ := h
        replace h := bind_some_inv h; obtain ⟨_, s5, h5, h⟩ := h
        replace h := bind_some_inv h; obtain ⟨_, s6, h6, h⟩ := h
        replace h := bind_some_inv h; obtain ⟨_, s7, h7, h⟩ := h
        replace h := bind_some_inv h; obtain ⟨m, s8, h8, h⟩ := h
        replace h := bind_some_inv h; obtain ⟨_, s9, h9, h⟩ := h
        obtain ⟨a1, b1⟩ := expect_inv h1
        obtain ⟨a2, b2⟩ := name_inv h2
        obtain ⟨a3, b3⟩ := expect_inv h3
        obtain ⟨fs, a4, c4, x, y, b4⟩ := parameters_inv num fuel h4
        obtain ⟨a7, b7⟩ := expect_inv h7
        have hm : m = r := by cases h; rfl
        subst hm
        rw [b3, b2, b1] at b4
        obtain ⟨a8, ns, ps, f1, f2⟩ := body_inv (by rw [b4]; exact fresh_idle hg x y) (by rw [b4]; exact hg.doubles) (by rw [b4]; exact hg.parents) (by rw [b4]; exact hg.vars)
          (by rw [b4]; exact hg.links) (by rw [b4]; exact hg.pots) h5 h6 b7 h8
        rw [b4] at f2
        have h8' : s8.rest = [] := by
          unfold endOfFile at h9
          cases hr : s8.rest with
          | nil => rfl
          | cons t u => rw [hr] at h9; cases h9
        refine ⟨⟨.klass w fs, ns, ps⟩, ?_, f2 (.klass w fs) c4⟩
        rw [a1, a2, a3, a4, f1, a7, ← a8, h8']
        simp [NetText.lexemes]
      | net =>
        simp only [↓reduceIte] at h
        replace h := bind_some_inv h; obtain ⟨_, s1, h1, h⟩ := h
        replace h := bind_some_inv h; obtain ⟨_, s2, h2, h⟩ := h
        replace h := bind_some_inv h; obtain ⟨_, s3, h3, h⟩ := h
        replace h := bind_some_inv h; obtain ⟨_, s4, h4, h⟩ := h
        obtain ⟨a1, b1⟩ := expect_inv h1
        obtain ⟨a2, b2⟩ := expect_inv h2
        obtain ⟨fs, a3, c3, x, y, b3⟩ := parameters_inv num fuel h3
        obtain ⟨a4, b4⟩ := expect_inv h4
        obtain ⟨ns, ps, e1, e2⟩ := plain s4 x y (by rw [b4, b3, b2, b1]) h
        refine ⟨⟨.net fs, ns, ps⟩, ?_, e2 (.net fs) c3⟩
        rw [a1, a2, a3, a4, e1]
        simp [NetText.lexemes]
      | _ => exact bare h
    | _ => exact bare h

theorem parse_inv {num : Numerals K} {ptr : Nat} {s s' : Session K} {file : List Char} {r : ReadModel K} (hg : s.g.Fresh) (h : parseModel num ptr s file = ok (some r, s')) :
    ∃ d e, lexFile s.lex file = ok (d.lexemes, e) ∧ Accepted num s.g.nextId d r := by
  unfold parseModel at h
  cases hl : lexFile s.lex file with
  | ub => rw [hl] at h; cases h
  | ok p =>
    obtain ⟨ts, e⟩ := p
    rw [hl, ok_bind] at h
    simp only at h
    cases hi : input num ptr (ts.length + 1) { g := s.g, rest := ts } with
    | ub => rw [hi] at h; cases h
    | ok q =>
      obtain ⟨o, p'⟩ := q
      rw [hi, ok_bind] at h
      cases o with
      | none => cases h
      | some m =>
        cases h
        obtain ⟨d, h1, h2⟩ := input_inv hg hi
        exact ⟨d, e, by rw [← h1], h2⟩

end

theorem search_made {num : Numerals K} {w : List Char} : ∀ (ns : List NodeText) (base : Nat) {v : Nat}, searchVar (madeFrom num base ns) w = some v →
    ∃ i m, v = base + i ∧ ns[i]? = some m ∧ ns.find? (fun n => n.name.take 40 == w) = some m
  | [], _, _, h => by cases h
  | n :: ns, base, v, h => by
    unfold searchVar at h
    rw [madeFrom, List.find?_cons] at h
    cases hq : (madeRec num base n).symbol == w with
    | true =>
      rw [hq] at h
      cases h
      refine ⟨0, n, rfl, rfl, ?_⟩
      rw [List.find?_cons]
      have : (n.name.take 40 == w) = true := hq
      rw [this]
    | false =>
      rw [hq] at h
      obtain ⟨i, m, h1, h2, h3⟩ := search_made ns (base + 1) h
      refine ⟨i + 1, m, by omega, h2, ?_⟩
      rw [List.find?_cons]
      have : (n.name.take 40 == w) = false := hq
      rw [this]
      exact h3

theorem card_made {num : Numerals K} : ∀ (ns : List NodeText) (base i : Nat) {m : NodeText}, ns[i]? = some m →
    cardOf (madeFrom num base ns) (base + i) = m.lastStates.elim 0 List.length
  | [], _, _, _, h => by simp at h
  | n :: ns, base, 0, m, h => by
    simp only [List.getElem?_cons_zero, Option.some.injEq] at h
    subst h
    unfold cardOf
    rw [madeFrom, List.find?_cons]
    have : ((madeRec num base n).id == base + 0) = true := by simp [madeRec]
    rw [this]
    simp only [Option.map_some, Option.getD_some, madeRec, List.length_map]
    cases n.lastStates <;> rfl
  | n :: ns, base, i + 1, m, h => by
    simp only [List.getElem?_cons_succ] at h
    have ih := card_made (num := num) ns (base + 1) i h
    unfold cardOf at ih ⊢
    rw [madeFrom, List.find?_cons]
    have : ((madeRec num base n).id == base + (i + 1)) = false := by simp [madeRec]
    rw [this]
    have he : base + (i + 1) = base + 1 + i := by omega
    rw [he]
    exact ih

theorem search_count {num : Numerals K} {d : NetText} {base v : Nat} {w : List Char} (h : searchVar (madeFrom num base d.nodes) w = some v) :
    (∃ m, d.called w = some m) ∧ cardOf (madeFrom num base d.nodes) v = d.count w := by
  obtain ⟨i, m, rfl, h2, h3⟩ := search_made d.nodes base h
  have h3' : d.called w = some m := h3
  refine ⟨⟨m, h3'⟩, ?_⟩
  rw [card_made d.nodes base i h2]
  unfold NetText.count
  rw [h3']
  rfl

theorem linkVars_inv {vars : List NodeRec} : ∀ (l : List (Nat × List Char)) {next next' : Nat → Option Nat}, linkVars vars l next = ok (some next') →
    ∀ p ∈ l, ∃ u, searchVar vars p.2 = some u ∧ cardOf vars p.1 = cardOf vars u
  | [], _, _, _, p, hp => by cases hp
  | (v, name) :: l, next, next', h, p, hp => by
    rw [linkVars] at h
    cases hq : searchVar vars name with
    | none => rw [hq] at h; cases h
    | some u =>
      rw [hq] at h
      simp only at h
      by_cases hc : cardOf vars v = cardOf vars u
      · rw [if_pos hc] at h
        rcases List.mem_cons.1 hp with rfl | hp
        · exact ⟨u, hq, hc⟩
        · exact linkVars_inv l h p hp
      · rw [if_neg hc] at h
        cases h

theorem mem_linksFrom {n : NodeText} {w : List Char} (hn : n.next = some w) : ∀ (ns : List NodeText) (base i : Nat), ns[i]? = some n → (base + i, w) ∈ linksFrom base ns
  | [], _, _, h => by simp at h
  | m :: ns, base, 0, h => by
    simp only [List.getElem?_cons_zero, Option.some.injEq] at h
    subst h
    simp [linksFrom, hn]
  | m :: ns, base, i + 1, h => by
    simp only [List.getElem?_cons_succ] at h
    have ih := mem_linksFrom hn ns (base + 1) i h
    have he : base + (i + 1) = base + 1 + i := by omega
    rw [linksFrom, he]
    exact List.mem_append_right _ ih

theorem parentList_reverse (l : List Nat) : parentList l = l.reverse := by
  unfold parentList
  have : ∀ (l acc : List Nat), l.foldl (fun l v => v :: l) acc = l.reverse ++ acc := by
    intro l
    induction l with
    | nil => intro acc; rfl
    | cons a l ih => intro acc; simp [ih]
  rw [this]
  simp

theorem foldl_prod (f : Nat → Nat) (l : List Nat) : ∀ a, l.foldl (fun s v => s * f v) a = a * (l.map f).prod := by
  induction l with
  | nil => intro a; simp
  | cons b l ih => intro a; rw [List.foldl_cons, ih, List.map_cons, List.prod_cons, Nat.mul_assoc]

section
variable [Field K] [LinearOrder K]

theorem enough_numbers {card : Nat → Nat} {c : Nat} {vs : Option (List Nat)} {data : List K} {q : Parsed K} (h : potentialDeclaration card c vs (some data) = ok (some q)) :
    ((c :: vs.getD []).map card).prod ≤ data.length := by
  unfold potentialDeclaration at h
  cases vs with
  | none =>
    simp only at h
    by_cases hc : card c > data.length
    · rw [if_pos hc] at h; cases h
    · simpa using Nat.le_of_not_lt hc
  | some l =>
    simp only at h
    by_cases h0 : l = []
    · rw [if_pos h0] at h; cases h
    · rw [if_neg h0] at h
      by_cases hc : ((some data).any (fun d => decide ((c :: parentList l).foldl (fun s v => s * card v) 1 > d.length))) = true
      · rw [if_pos hc] at h; cases h
      · simp only [Option.any_some, decide_eq_true_eq, not_lt, foldl_prod, one_mul, parentList_reverse] at hc
        simp only [List.map_cons, List.prod_cons, List.map_reverse, List.prod_reverse] at hc
        simpa using hc

theorem forall₂_left {α β : Type} {R : α → β → Prop} {l : List α} {m : List β} (h : List.Forall₂ R l m) : ∀ a ∈ l, ∃ b, R a b := by
  induction h with
  | nil => intro a ha; cases ha
  | cons h _ ih =>
    intro a ha
    rcases List.mem_cons.1 ha with rfl | ha
    · exact ⟨_, h⟩
    · exact ih a ha

/-- what is accepted has what is asked for -/
theorem accepted_required {num : Numerals K} {base : Nat} {d : NetText} {r : ReadModel K} (h : Accepted num base d r) : d.Required num.int where
  nodes := h.nonempty
  potentials := h.potsNonempty
  states := by
    intro n hn
    obtain ⟨l, hl⟩ := Option.isSome_iff_exists.1 (h.nodes n hn).states
    refine ⟨l, hl, ?_⟩
    obtain ⟨f, f1, f2⟩ := List.mem_filterMap.1 (List.mem_of_getLast? hl)
    cases f with
    | states l' => cases f2; exact (h.nodes n hn).readable _ f1
    | _ => cases f2
  positions := fun n hn x y hxy => (h.nodes n hn).readable _ hxy
  sizes := h.sizes
  next := by
    intro n hn w hw
    obtain ⟨i, hi⟩ := List.mem_iff_getElem?.1 hn
    obtain ⟨u, h1, h2⟩ := linkVars_inv _ h.next _ (mem_linksFrom hw d.nodes base i hi)
    rw [h.recs] at h1 h2
    obtain ⟨h3, h4⟩ := search_count h1
    exact ⟨h3, by rw [← h4, ← h2, card_made d.nodes base i hi]⟩
  names := by
    intro p hp w hw
    obtain ⟨q, c, vs, h1, h2, _⟩ := forall₂_left h.pots p hp
    rw [h.recs] at h1 h2
    rcases List.mem_cons.1 hw with rfl | hw
    · exact (search_count h1).1
    · generalize p.parents = ps at h2 hw
      cases h2 with
      | none => cases hw
      | some hf =>
        simp only [Option.getD_some] at hw
        obtain ⟨v, hv⟩ := forall₂_left hf w hw
        exact (search_count hv).1
  parents := by
    intro p hp
    obtain ⟨q, c, vs, _, _, h3, _⟩ := forall₂_left h.pots p hp
    exact h3
  numbers := by
    intro p hp g hg
    obtain ⟨q, c, vs, h1, h2, _, h4, h5⟩ := forall₂_left h.pots p hp
    refine ⟨h4 g hg, ?_⟩
    rw [hg] at h5
    have h6 := enough_numbers h5
    rw [List.length_map] at h6
    rw [h.recs] at h1 h2 h6
    have : (p.child :: p.parents.getD []).map d.count = (c :: vs.getD []).map (cardOf (madeFrom num base d.nodes)) := by
      rw [List.map_cons, List.map_cons, (search_count h1).2]
      congr 1
      generalize p.parents = ps at h2
      cases h2 with
      | none => rfl
      | some hf =>
        simp only [Option.getD_some]
        clear h5 h6
        induction hf with
        | nil => rfl
        | cons a _ ih => rw [List.map_cons, List.map_cons, (search_count a).2, ih]
    rw [this]
    exact h6

end

end Nip
