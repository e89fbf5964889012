import Verif.HuginParse
import Verif.Spec.HuginNet

/-! # Reading the parts of a network file -/

namespace Nip

open Res Spec Parse

variable {K : Type}

section monad
variable {α β : Type}

theorem run_bind (m : Parse K α) (f : α → Parse K β) (s : PState K) :
    (m >>= f) s = (do let p ← m s; match p.1 with | none => ok (none, p.2) | some a => f a p.2) := rfl

theorem run_some {m : Parse K α} {f : α → Parse K β} {s s' : PState K} {a : α} (h : m s = ok (some a, s')) : (m >>= f) s = f a s' := by
  rw [run_bind, h, ok_bind]

theorem run_none {m : Parse K α} {f : α → Parse K β} {s s' : PState K} (h : m s = ok (none, s')) : (m >>= f) s = ok (none, s') := by
  rw [run_bind, h, ok_bind]

theorem run_ub {m : Parse K α} {f : α → Parse K β} {s : PState K} (h : m s = ub) : (m >>= f) s = ub := by
  rw [run_bind, h]; rfl

theorem run_pure (a : α) (s : PState K) : (Pure.pure a : Parse K α) s = ok (some a, s) := rfl

theorem run_expect (t : Lexeme) (g : Statics K) (r : List Lexeme) : expect t ⟨g, t :: r⟩ = ok (some (), ⟨g, r⟩) := by
  simp [expect]

theorem run_name (w : List Char) (g : Statics K) (r : List Lexeme) : takeName ⟨g, .name w :: r⟩ = ok (some w, ⟨g, r⟩) := rfl

theorem run_text (w : List Char) (g : Statics K) (r : List Lexeme) : takeText ⟨g, .text w :: r⟩ = ok (some w, ⟨g, r⟩) := rfl

theorem run_number (w : List Char) (g : Statics K) (r : List Lexeme) : takeNumber ⟨g, .number w :: r⟩ = ok (some w, ⟨g, r⟩) := rfl

theorem run_peek (s : PState K) : peek s = ok (some s.rest.head?, s) := rfl

theorem run_statics (s : PState K) : statics s = ok (some s.g, s) := rfl

theorem run_assign (f : Statics K → Statics K) (s : PState K) : assign f s = ok (some (), { s with g := f s.g }) := rfl

theorem run_abort (s : PState K) : (abort : Parse K α) s = ok (none, s) := rfl

theorem run_crash (s : PState K) : (crash : Parse K α) s = ub := rfl

theorem run_pos {c : Prop} [Decidable c] (h : c) {a b : Parse K α} {s : PState K} : (if c then a else b) s = a s := by rw [if_pos h]

theorem run_neg {c : Prop} [Decidable c] (h : ¬ c) {a b : Parse K α} {s : PState K} : (if c then a else b) s = b s := by rw [if_neg h]

end monad

theorem scan_grouped (gr : Grouped) : ∀ (d : Nat) (r : List Lexeme),
    scanNumbers d (gr.lexemes ++ r) = ((scanNumbers d r).1, gr.words ++ (scanNumbers d r).2.1, (scanNumbers d r).2.2) := by
  induction gr with
  | nil => intro d r; rfl
  | num w m ih =>
    intro d r
    rw [Grouped.lexemes, List.cons_append, scanNumbers, ih]
    rfl
  | group i m ih1 ih2 =>
    intro d r
    rw [Grouped.lexemes, List.append_assoc, List.cons_append, scanNumbers, List.cons_append, ih1, scanNumbers, ih2]
    simp [Grouped.words]

theorem ignored_grouped (gr : Grouped) (g : Statics K) (r : List Lexeme) :
    ignoredNumbers ⟨g, gr.lexemes ++ .mark ';' :: r⟩ = ok (some (), ⟨g, .mark ';' :: r⟩) := by
  unfold ignoredNumbers
  simp only [scan_grouped]
  have : scanNumbers 0 (.mark ';' :: r) = (true, [], .mark ';' :: r) := by simp [scanNumbers]
  rw [this]
  rfl

theorem numbers_grouped (num : Numerals K) (gr : Grouped) (g : Statics K) (r : List Lexeme) :
    numbers num ⟨g, gr.lexemes ++ .mark ')' :: r⟩ = ok (some (), ⟨{ g with doubles := g.doubles ++ gr.words.map num.value }, .mark ')' :: r⟩) := by
  unfold numbers
  simp only [scan_grouped]
  have : scanNumbers 0 (.mark ')' :: r) = (true, [], .mark ')' :: r) := by simp [scanNumbers]
  rw [this]
  simp

theorem value_eq (v : FieldValue) (g : Statics K) (r : List Lexeme) :
    valueRule ⟨g, v.lexemes ++ .mark ';' :: r⟩ = ok (some (), ⟨g, .mark ';' :: r⟩) := by
  unfold valueRule
  rw [run_some (run_peek _)]
  cases v with
  | text w =>
    simp only [FieldValue.lexemes, List.cons_append, List.nil_append, List.head?_cons]
    rw [run_some (run_text w g _)]
    rfl
  | numbers gr =>
    simp only [FieldValue.lexemes]
    have hh : ∀ w, (gr.lexemes ++ Lexeme.mark ';' :: r).head? ≠ some (.text w) := by
      intro w
      cases gr <;> simp [Grouped.lexemes]
    generalize hq : (gr.lexemes ++ Lexeme.mark ';' :: r).head? = q at hh
    rcases q with _ | t
    · exact ignored_grouped gr g r
    · cases t with
      | text w => exact absurd rfl (hh w)
      | _ => exact ignored_grouped gr g r

theorem unknown_eq (n : List Char) (v : FieldValue) (g : Statics K) (r : List Lexeme) :
    unknownDeclaration ⟨g, .name n :: .mark '=' :: (v.lexemes ++ .mark ';' :: r)⟩ = ok (some (), ⟨g, r⟩) := by
  unfold unknownDeclaration
  rw [run_some (run_name n g _), run_some (run_expect _ g _), run_some (value_eq v g r), run_expect]

theorem scanTexts_eq (ns : List (List Char)) (r : List Lexeme) :
    scanTexts (ns.map Lexeme.text ++ .mark ')' :: r) = (ns, .mark ')' :: r) := by
  induction ns with
  | nil => rfl
  | cons n ns ih => rw [List.map_cons, List.cons_append, scanTexts, ih]

theorem states_eq (ns : List (List Char)) (hn : ns ≠ []) (g : Statics K) (hg : g.strings = []) (r : List Lexeme) :
    statesDeclaration ⟨g, (NodeField.states ns).lexemes ++ r⟩ = ok (some (), ⟨{ g with states := some ns }, r⟩) := by
  unfold statesDeclaration
  simp only [NodeField.lexemes, List.append_assoc, List.cons_append, List.nil_append]
  rw [run_some (run_expect _ g _), run_some (run_expect _ g _), run_some (run_expect _ g _)]
  have : strings ⟨g, ns.map Lexeme.text ++ .mark ')' :: .mark ';' :: r⟩ = ok (some (), ⟨{ g with strings := ns }, .mark ')' :: .mark ';' :: r⟩) := by
    unfold strings
    simp only [scanTexts_eq, hg, List.nil_append]
  rw [run_some this, run_some (run_expect _ _ _), run_some (run_expect _ _ _), run_some (run_statics _)]
  simp only
  rw [if_neg hn, run_assign]
  simp only [← hg]

theorem textDecl_eq (k : Keyword) (w : List Char) (g : Statics K) (r : List Lexeme) :
    textDeclaration k ⟨g, .key k :: .mark '=' :: .text w :: .mark ';' :: r⟩ = ok (some w, ⟨g, r⟩) := by
  unfold textDeclaration
  rw [run_some (run_expect _ g _), run_some (run_expect _ g _), run_some (run_text w g _), run_some (run_expect _ g _)]
  rfl

theorem pairDecl_eq (num : Numerals K) (k : Keyword) {x y : List Char} {a b : Nat} (hx : num.int x = some a) (hy : num.int y = some b) (g : Statics K)
    (r : List Lexeme) :
    pairDeclaration num k ⟨g, .key k :: .mark '=' :: .mark '(' :: .number x :: .number y :: .mark ')' :: .mark ';' :: r⟩ = ok (some (a, b), ⟨g, r⟩) := by
  unfold pairDeclaration
  rw [run_some (run_expect _ g _), run_some (run_expect _ g _), run_some (run_expect _ g _), run_some (run_number x g _), run_some (run_number y g _),
    run_some (run_expect _ g _), run_some (run_expect _ g _)]
  simp only [hx, hy]
  rfl

/-- the static variables after the fields of a node -/
def afterFields (num : Numerals K) : Statics K → List NodeField → Statics K
  | g, [] => g
  | g, .states ns :: fs => afterFields num { g with states := some ns } fs
  | g, .label w :: fs => { afterFields num g fs with label := .live w }
  | g, .next w :: fs => { afterFields num g fs with persistence := some w }
  | g, .position x y :: fs => afterFields num { g with posX := (num.int x).getD 0, posY := (num.int y).getD 0 } fs
  | g, .other _ _ :: fs => afterFields num g fs

/-- a field that can be read -/
def NodeField.Readable (num : Numerals K) : NodeField → Prop
  | .states ns => ns ≠ []
  | .position x y => (num.int x).isSome ∧ (num.int y).isSome
  | _ => True

theorem nodeParams_eq (num : Numerals K) (r : List Lexeme) (fs : List NodeField) : ∀ (fuel : Nat) (g : Statics K), g.strings = [] → fs.length < fuel →
    (∀ f ∈ fs, NodeField.Readable num f) →
    nodeParams num fuel ⟨g, fs.flatMap NodeField.lexemes ++ .mark '}' :: r⟩ = ok (some (), ⟨afterFields num g fs, .mark '}' :: r⟩) := by
  induction fs with
  | nil =>
    intro fuel g _ hf _
    obtain ⟨n, rfl⟩ : ∃ n, fuel = n + 1 := ⟨fuel - 1, by simp at hf; omega⟩
    unfold nodeParams
    rw [run_some (run_peek _)]
    rfl
  | cons f fs ih =>
    intro fuel g hg hf hr
    obtain ⟨n, rfl⟩ : ∃ n, fuel = n + 1 := ⟨fuel - 1, by simp at hf; omega⟩
    have hn : fs.length < n := by simpa using hf
    have hr' : ∀ f ∈ fs, NodeField.Readable num f := fun f hf => hr f (by simp [hf])
    have hr0 := hr f (by simp)
    rw [List.flatMap_cons, List.append_assoc]
    unfold nodeParams
    rw [run_some (run_peek _)]
    cases f with
    | states ns =>
      have hh : ((NodeField.states ns).lexemes ++ (fs.flatMap NodeField.lexemes ++ Lexeme.mark '}' :: r)).head? = some (.key .states) := rfl
      simp only [hh]
      rw [run_some (states_eq ns hr0 g hg _), ih n { g with states := some ns } hg hn hr']
      rfl
    | label w =>
      have hh : ((NodeField.label w).lexemes ++ (fs.flatMap NodeField.lexemes ++ Lexeme.mark '}' :: r)).head? = some (.key .label) := rfl
      simp only [hh]
      simp only [NodeField.lexemes, List.cons_append, List.nil_append]
      rw [run_some (textDecl_eq .label w g _), run_some (ih n g hg hn hr'), run_assign]
      rfl
    | next w =>
      have hh : ((NodeField.next w).lexemes ++ (fs.flatMap NodeField.lexemes ++ Lexeme.mark '}' :: r)).head? = some (.key .next) := rfl
      simp only [hh]
      simp only [NodeField.lexemes, List.cons_append, List.nil_append]
      rw [run_some (textDecl_eq .next w g _), run_some (ih n g hg hn hr'), run_assign]
      rfl
    | position x y =>
      have hh : ((NodeField.position x y).lexemes ++ (fs.flatMap NodeField.lexemes ++ Lexeme.mark '}' :: r)).head? = some (.key .position) := rfl
      simp only [hh]
      simp only [NodeField.lexemes, List.cons_append, List.nil_append]
      obtain ⟨h1, h2⟩ := hr0
      obtain ⟨a, ha⟩ := Option.isSome_iff_exists.mp h1
      obtain ⟨b, hb⟩ := Option.isSome_iff_exists.mp h2
      rw [run_some (pairDecl_eq num .position ha hb g _), run_some (run_assign _ _), ih n { g with posX := a, posY := b } hg hn hr']
      rw [afterFields, ha, hb]
      rfl
    | other m v =>
      have hh : ((NodeField.other m v).lexemes ++ (fs.flatMap NodeField.lexemes ++ Lexeme.mark '}' :: r)).head? = some (.name m) := rfl
      simp only [hh]
      simp only [NodeField.lexemes, List.cons_append, List.nil_append, List.append_assoc]
      rw [run_some (unknown_eq m v g _), ih n g hg hn hr']
      rfl

/-- the size of nodes that is known after the fields -/
def sizesAfter (num : Numerals K) (fs : List NetField) (p : Nat × Nat) : Nat × Nat :=
  ((sizeGiven fs).map (fun s => ((num.int s.1).getD 0, (num.int s.2).getD 0))).getD p

theorem parameters_eq (num : Numerals K) [Field K] [LinearOrder K] (fs : List NetField) (r : List Lexeme)
    (hr : ∀ w, r.head? ≠ some (.name w)) (hr' : r.head? ≠ some (.key .nodeSize)) : ∀ (fuel : Nat) (g : Statics K), fs.length < fuel →
    (∀ x y, .size x y ∈ fs → (num.int x).isSome ∧ (num.int y).isSome) →
    ∃ a b, (a, b) = sizesAfter num fs (g.sizeX, g.sizeY) ∧ parameters num fuel ⟨g, fs.flatMap NetField.lexemes ++ r⟩ = ok (some (), ⟨{ g with sizeX := a, sizeY := b }, r⟩) := by
  induction fs with
  | nil =>
    intro fuel g hf _
    obtain ⟨n, rfl⟩ : ∃ n, fuel = n + 1 := ⟨fuel - 1, by simp at hf; omega⟩
    refine ⟨g.sizeX, g.sizeY, rfl, ?_⟩
    unfold parameters
    rw [run_some (run_peek _)]
    simp only [List.flatMap_nil, List.nil_append]
    generalize hq : r.head? = q at hr hr'
    rcases q with _ | t
    · rfl
    · cases t with
      | name w => exact absurd rfl (hr w)
      | key k => cases k <;> first | rfl | exact absurd rfl hr'
      | _ => rfl
  | cons f fs ih =>
    intro fuel g hf hs
    obtain ⟨n, rfl⟩ : ∃ n, fuel = n + 1 := ⟨fuel - 1, by simp at hf; omega⟩
    have hn : fs.length < n := by simpa using hf
    have hs' : ∀ x y, .size x y ∈ fs → (num.int x).isSome ∧ (num.int y).isSome := fun x y h => hs x y (by simp [h])
    rw [List.flatMap_cons, List.append_assoc]
    unfold parameters
    rw [run_some (run_peek _)]
    cases f with
    | size x y =>
      have hh : ((NetField.size x y).lexemes ++ (fs.flatMap NetField.lexemes ++ r)).head? = some (.key .nodeSize) := rfl
      simp only [hh]
      simp only [NetField.lexemes, List.cons_append, List.nil_append]
      obtain ⟨h1, h2⟩ := hs x y (by simp)
      obtain ⟨a, ha⟩ := Option.isSome_iff_exists.mp h1
      obtain ⟨b, hb⟩ := Option.isSome_iff_exists.mp h2
      rw [run_some (pairDecl_eq num .nodeSize ha hb g _), run_some (run_assign _ _)]
      obtain ⟨a', b', h3, h4⟩ := ih n { g with sizeX := a, sizeY := b } hn hs'
      refine ⟨a', b', h3.trans ?_, h4⟩
      have : (.size x y :: fs : List NetField).filterMap NetField.sizeOf = (x, y) :: fs.filterMap NetField.sizeOf := rfl
      unfold sizesAfter sizeGiven
      rw [this, List.getLast?_cons]
      cases (fs.filterMap NetField.sizeOf).getLast? with
      | none => simp [ha, hb]
      | some q => simp
    | other m v =>
      have hh : ((NetField.other m v).lexemes ++ (fs.flatMap NetField.lexemes ++ r)).head? = some (.name m) := rfl
      simp only [hh]
      simp only [NetField.lexemes, List.cons_append, List.nil_append, List.append_assoc]
      rw [run_some (unknown_eq m v g _)]
      obtain ⟨a', b', h3, h4⟩ := ih n g hn hs'
      exact ⟨a', b', h3, h4⟩

end Nip
