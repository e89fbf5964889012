import Verif.Spec.HuginNet

/-!
# The lexemes of a network file determine the description
-/

namespace Nip

open Spec

/-- the first lexeme is not in a class -/
def NotFirst (p : Lexeme → Bool) (r : List Lexeme) : Prop := ∀ t, r.head? = some t → p t = false

theorem notFirst_cons {p : Lexeme → Bool} {t : Lexeme} {r : List Lexeme} (h : p t = false) : NotFirst p (t :: r) := by
  intro u hu
  cases hu
  exact h

theorem notFirst_nil {p : Lexeme → Bool} : NotFirst p [] := by
  intro u hu
  cases hu

/-- numbers and opening parentheses -/
def isGroup : Lexeme → Bool
  | .number _ => true
  | .mark '(' => true
  | _ => false

theorem grouped_unique : ∀ (g g' : Grouped) {r r' : List Lexeme}, NotFirst isGroup r → NotFirst isGroup r' → g.lexemes ++ r = g'.lexemes ++ r' → g = g' ∧ r = r'
  | .nil, .nil, _, _, _, _, h => ⟨rfl, h⟩
  | .nil, .num w m, _, _, hr, _, h => by
    have h' : _ = Lexeme.number w :: _ := h
    simp only [Grouped.lexemes, List.nil_append] at h'
    rw [h'] at hr
    exact absurd (hr _ rfl) (by simp [isGroup])
  | .nil, .group i m, _, _, hr, _, h => by
    have h' : _ = Lexeme.mark '(' :: _ := h
    simp only [Grouped.lexemes, List.nil_append] at h'
    rw [h'] at hr
    exact absurd (hr _ rfl) (by simp [isGroup])
  | .num w m, .nil, _, _, _, hr, h => by
    have h' : Lexeme.number w :: _ = _ := h
    simp only [Grouped.lexemes, List.nil_append] at h'
    rw [← h'] at hr
    exact absurd (hr _ rfl) (by simp [isGroup])
  | .group i m, .nil, _, _, _, hr, h => by
    have h' : Lexeme.mark '(' :: _ = _ := h
    simp only [Grouped.lexemes, List.nil_append] at h'
    rw [← h'] at hr
    exact absurd (hr _ rfl) (by simp [isGroup])
  | .num w m, .group i n, _, _, _, _, h => by simp [Grouped.lexemes] at h
  | .group i n, .num w m, _, _, _, _, h => by simp [Grouped.lexemes] at h
  | .num w m, .num w' m', r, r', hr, hr', h => by
    simp only [Grouped.lexemes, List.cons_append, List.cons.injEq, Lexeme.number.injEq] at h
    obtain ⟨rfl, h⟩ := h
    replace h := grouped_unique m m' hr hr' h
    obtain ⟨rfl, h⟩ := h
    exact ⟨rfl, h⟩
  | .group i m, .group i' m', r, r', hr, hr', h => by
    simp only [Grouped.lexemes, List.cons_append, List.append_assoc, List.cons.injEq, true_and] at h
    replace h := grouped_unique i i' (notFirst_cons rfl) (notFirst_cons rfl) h
    obtain ⟨rfl, h⟩ := h
    rw [List.cons.injEq] at h
    replace h := grouped_unique m m' hr hr' h.2
    obtain ⟨rfl, h⟩ := h
    exact ⟨rfl, h⟩

theorem words_unique {p : Lexeme → Bool} (f : List Char → Lexeme) (hf : Function.Injective f) (hp : ∀ w, p (f w) = true) :
    ∀ (l l' : List (List Char)) {r r' : List Lexeme}, NotFirst p r → NotFirst p r' → l.map f ++ r = l'.map f ++ r' → l = l' ∧ r = r'
  | [], [], _, _, _, _, h => ⟨rfl, h⟩
  | [], w :: l, _, _, hr, _, h => by
    have h' : _ = f w :: _ := h
    simp only [List.map_nil, List.nil_append] at h'
    rw [h'] at hr
    exact absurd (hr _ rfl) (by simp [hp])
  | w :: l, [], _, _, _, hr, h => by
    have h' : f w :: _ = _ := h
    simp only [List.map_nil, List.nil_append] at h'
    rw [← h'] at hr
    exact absurd (hr _ rfl) (by simp [hp])
  | w :: l, w' :: l', _, _, hr, hr', h => by
    simp only [List.map_cons, List.cons_append, List.cons.injEq] at h
    obtain ⟨h1, h⟩ := h
    replace h := words_unique f hf hp l l' hr hr' h
    exact ⟨by rw [hf h1, h.1], h.2⟩

/-- things written one after another -/
theorem items_unique {α : Type} {p : Lexeme → Bool} (f : α → List Lexeme) (hf : ∀ a, ∃ t u, f a = t :: u ∧ p t = true)
    (hu : ∀ a b r r', f a ++ r = f b ++ r' → a = b ∧ r = r') :
    ∀ (l l' : List α) {r r' : List Lexeme}, NotFirst p r → NotFirst p r' → l.flatMap f ++ r = l'.flatMap f ++ r' → l = l' ∧ r = r'
  | [], [], _, _, _, _, h => ⟨rfl, h⟩
  | [], a :: l, _, _, hr, _, h => by
    obtain ⟨t, u, hq, ht⟩ := hf a
    rw [List.flatMap_nil, List.nil_append, List.flatMap_cons, hq] at h
    rw [h] at hr
    exact absurd (hr t rfl) (by simp [ht])
  | a :: l, [], _, _, _, hr, h => by
    obtain ⟨t, u, hq, ht⟩ := hf a
    rw [List.flatMap_nil, List.nil_append, List.flatMap_cons, hq] at h
    rw [← h] at hr
    exact absurd (hr t rfl) (by simp [ht])
  | a :: l, b :: l', _, _, hr, hr', h => by
    simp only [List.flatMap_cons, List.append_assoc] at h
    replace h := hu _ _ _ _ h
    obtain ⟨rfl, h⟩ := h
    replace h := items_unique f hf hu l l' hr hr' h
    obtain ⟨rfl, h⟩ := h
    exact ⟨rfl, h⟩

theorem value_unique (v v' : FieldValue) {r r' : List Lexeme} (h : v.lexemes ++ .mark ';' :: r = v'.lexemes ++ .mark ';' :: r') : v = v' ∧ r = r' := by
  have key : ∀ (w : List Char) (g : Grouped) (u u' : List Lexeme), Lexeme.text w :: u ≠ g.lexemes ++ .mark ';' :: u' := by
    intro w g u u' h
    cases g <;> simp [Grouped.lexemes] at h
  cases v with
  | text w =>
    cases v' with
    | text w' => simpa [FieldValue.lexemes] using h
    | numbers g => exact absurd h (key w g _ _)
  | numbers g =>
    cases v' with
    | text w' => exact absurd h.symm (key w' g _ _)
    | numbers g' =>
      replace h := grouped_unique g g' (notFirst_cons rfl) (notFirst_cons rfl) h
      obtain ⟨rfl, h⟩ := h
      rw [List.cons.injEq] at h
      exact ⟨rfl, h.2⟩

/-- a text -/
def isText : Lexeme → Bool
  | .text _ => true
  | _ => false

/-- a name -/
def isNameLexeme : Lexeme → Bool
  | .name _ => true
  | _ => false

theorem text_injective : Function.Injective Lexeme.text := fun _ _ h => by injection h

theorem name_injective : Function.Injective Lexeme.name := fun _ _ h => by injection h

theorem nodeField_unique (f f' : NodeField) (r r' : List Lexeme) (h : f.lexemes ++ r = f'.lexemes ++ r') : f = f' ∧ r = r' := by
  cases f <;> cases f' <;> simp [NodeField.lexemes] at h
  · replace h := words_unique (p := isText) Lexeme.text text_injective (fun _ => rfl) _ _ (notFirst_cons rfl) (notFirst_cons rfl) h
    obtain ⟨rfl, h⟩ := h
    exact ⟨rfl, by simpa using h⟩
  · obtain ⟨rfl, rfl⟩ := h; exact ⟨rfl, rfl⟩
  · obtain ⟨rfl, rfl⟩ := h; exact ⟨rfl, rfl⟩
  · obtain ⟨rfl, rfl, rfl⟩ := h; exact ⟨rfl, rfl⟩
  · obtain ⟨rfl, h⟩ := h
    obtain ⟨rfl, rfl⟩ := value_unique _ _ h
    exact ⟨rfl, rfl⟩

theorem netField_unique (f f' : NetField) (r r' : List Lexeme) (h : f.lexemes ++ r = f'.lexemes ++ r') : f = f' ∧ r = r' := by
  cases f <;> cases f' <;> simp [NetField.lexemes] at h
  · obtain ⟨rfl, rfl, rfl⟩ := h; exact ⟨rfl, rfl⟩
  · obtain ⟨rfl, h⟩ := h
    obtain ⟨rfl, rfl⟩ := value_unique _ _ h
    exact ⟨rfl, rfl⟩

/-- how fields begin -/
def isField : Lexeme → Bool
  | .key .states => true
  | .key .label => true
  | .key .next => true
  | .key .position => true
  | .key .nodeSize => true
  | .name _ => true
  | _ => false

/-- how nodes begin -/
def isNode : Lexeme → Bool
  | .key .node => true
  | .key .discrete => true
  | _ => false

/-- how potentials begin -/
def isPotential : Lexeme → Bool
  | .key .potential => true
  | _ => false

theorem nodeField_first (f : NodeField) : ∃ t u, f.lexemes = t :: u ∧ isField t = true := by
  cases f <;> exact ⟨_, _, rfl, rfl⟩

theorem netField_first (f : NetField) : ∃ t u, f.lexemes = t :: u ∧ isField t = true := by
  cases f <;> exact ⟨_, _, rfl, rfl⟩

theorem node_first (n : NodeText) : ∃ t u, n.lexemes = t :: u ∧ isNode t = true := by
  obtain ⟨b, w, fs⟩ := n
  cases b <;> exact ⟨_, _, rfl, rfl⟩

theorem potential_first (p : PotText) : ∃ t u, p.lexemes = t :: u ∧ isPotential t = true := ⟨_, _, rfl, rfl⟩

theorem node_unique (n n' : NodeText) (r r' : List Lexeme) (h : n.lexemes ++ r = n'.lexemes ++ r') : n = n' ∧ r = r' := by
  obtain ⟨b, w, fs⟩ := n
  obtain ⟨b', w', fs'⟩ := n'
  have hb : b = b' ∧ w = w' ∧ fs.flatMap NodeField.lexemes ++ .mark '}' :: r = fs'.flatMap NodeField.lexemes ++ .mark '}' :: r' := by
    cases b <;> cases b' <;> simpa [NodeText.lexemes] using h
  replace h := hb
  obtain ⟨rfl, rfl, h⟩ := h
  replace h := items_unique _ nodeField_first nodeField_unique _ _ (notFirst_cons rfl) (notFirst_cons rfl) h
  obtain ⟨rfl, h⟩ := h
  rw [List.cons.injEq] at h
  exact ⟨rfl, h.2⟩

theorem potential_unique (p p' : PotText) (r r' : List Lexeme) (h : p.lexemes ++ r = p'.lexemes ++ r') : p = p' ∧ r = r' := by
  obtain ⟨c, ps, g⟩ := p
  obtain ⟨c', ps', g'⟩ := p'
  simp only [PotText.lexemes, List.cons_append, List.nil_append, List.append_assoc, List.cons.injEq, Lexeme.name.injEq, true_and] at h
  obtain ⟨rfl, h⟩ := h
  have hp : ps = ps' ∧ dataLexemes g ++ .mark '}' :: r = dataLexemes g' ++ .mark '}' :: r' := by
    cases ps with
    | none =>
      cases ps' with
      | none => simpa [parentLexemes] using h
      | some l => simp [parentLexemes] at h
    | some l =>
      cases ps' with
      | none => simp [parentLexemes] at h
      | some l' =>
        simp only [parentLexemes, List.cons_append, List.cons.injEq, true_and] at h
        replace h := words_unique (p := isNameLexeme) Lexeme.name name_injective (fun _ => rfl) _ _ (notFirst_cons rfl) (notFirst_cons rfl) h
        obtain ⟨rfl, h⟩ := h
        simpa using h
  replace h := hp
  obtain ⟨rfl, h⟩ := h
  cases g with
  | none =>
    cases g' with
    | none => simpa [dataLexemes] using h
    | some g' => simp [dataLexemes] at h
  | some g =>
    cases g' with
    | none => simp [dataLexemes] at h
    | some g' =>
      simp only [dataLexemes, List.cons_append, List.nil_append, List.append_assoc, List.cons.injEq, true_and] at h
      replace h := grouped_unique _ _ (notFirst_cons rfl) (notFirst_cons rfl) h
      obtain ⟨rfl, h⟩ := h
      simpa using h

theorem inside_unique {ns ns' : List NodeText} {ps ps' : List PotText} {r r' : List Lexeme} (hn : NotFirst isNode r) (hn' : NotFirst isNode r')
    (hr : NotFirst isPotential r) (hr' : NotFirst isPotential r')
    (h : ns.flatMap NodeText.lexemes ++ (ps.flatMap PotText.lexemes ++ r) = ns'.flatMap NodeText.lexemes ++ (ps'.flatMap PotText.lexemes ++ r')) :
    ns = ns' ∧ ps = ps' ∧ r = r' := by
  have first : ∀ (ps : List PotText) (r : List Lexeme), NotFirst isNode r → NotFirst isNode (ps.flatMap PotText.lexemes ++ r) := by
    intro ps r hr
    cases ps with
    | nil => exact hr
    | cons p ps => exact notFirst_cons rfl
  replace h := items_unique _ node_first node_unique _ _ (first ps r hn) (first ps' r' hn') h
  obtain ⟨rfl, h⟩ := h
  replace h := items_unique _ potential_first potential_unique _ _ hr hr' h
  obtain ⟨rfl, h⟩ := h
  exact ⟨rfl, rfl, h⟩

/-- Different descriptions have different lexemes. -/
theorem lexemes_injective : Function.Injective NetText.lexemes := by
  intro d d' h
  obtain ⟨fr, ns, ps⟩ := d
  obtain ⟨fr', ns', ps'⟩ := d'
  have bareFirst : ∀ (ns : List NodeText) (ps : List PotText) (t : Lexeme) (u : List Lexeme), ns.flatMap NodeText.lexemes ++ ps.flatMap PotText.lexemes = t :: u →
      isNode t = true ∨ isPotential t = true := by
    intro ns ps t u h
    cases ns with
    | cons n ns =>
      obtain ⟨t', u', e1, e2⟩ := node_first n
      rw [List.flatMap_cons, e1] at h
      simp only [List.cons_append, List.cons.injEq] at h
      rw [← h.1]
      exact Or.inl e2
    | nil =>
      cases ps with
      | nil => cases h
      | cons p ps =>
        obtain ⟨t', u', e1, e2⟩ := potential_first p
        rw [List.flatMap_nil, List.nil_append, List.flatMap_cons, e1] at h
        simp only [List.cons_append, List.cons.injEq] at h
        rw [← h.1]
        exact Or.inr e2
  have notNet : ∀ (ns : List NodeText) (ps : List PotText) (k : Keyword) (u : List Lexeme), k = .net ∨ k = .klass →
      ns.flatMap NodeText.lexemes ++ ps.flatMap PotText.lexemes ≠ .key k :: u := by
    intro ns ps k u hk h
    rcases bareFirst _ _ _ _ h with h | h <;> rcases hk with rfl | rfl <;> cases h
  cases fr with
  | bare =>
    cases fr' with
    | bare =>
      have h' : ns.flatMap NodeText.lexemes ++ (ps.flatMap PotText.lexemes ++ []) = ns'.flatMap NodeText.lexemes ++ (ps'.flatMap PotText.lexemes ++ []) := by
        simpa [NetText.lexemes] using h
      obtain ⟨rfl, rfl, _⟩ := inside_unique notFirst_nil notFirst_nil notFirst_nil notFirst_nil h'
      rfl
    | net l => exact absurd h (notNet _ _ _ _ (Or.inl rfl))
    | klass w l => exact absurd h (notNet _ _ _ _ (Or.inr rfl))
  | net l =>
    cases fr' with
    | bare => exact absurd h.symm (notNet _ _ _ _ (Or.inl rfl))
    | net l' =>
      simp only [NetText.lexemes, List.cons_append, List.nil_append, List.append_assoc, List.cons.injEq, true_and] at h
      replace h := items_unique _ netField_first netField_unique _ _ (notFirst_cons rfl) (notFirst_cons rfl) h
      obtain ⟨rfl, h⟩ := h
      have h' : ns.flatMap NodeText.lexemes ++ (ps.flatMap PotText.lexemes ++ []) = ns'.flatMap NodeText.lexemes ++ (ps'.flatMap PotText.lexemes ++ []) := by
        simpa using h
      obtain ⟨rfl, rfl, _⟩ := inside_unique notFirst_nil notFirst_nil notFirst_nil notFirst_nil h'
      rfl
    | klass w l' => simp [NetText.lexemes] at h
  | klass w l =>
    cases fr' with
    | bare => exact absurd h.symm (notNet _ _ _ _ (Or.inr rfl))
    | net l' => simp [NetText.lexemes] at h
    | klass w' l' =>
      simp only [NetText.lexemes, List.cons_append, List.nil_append, List.append_assoc, List.cons.injEq, true_and, Lexeme.name.injEq] at h
      obtain ⟨rfl, h⟩ := h
      have first : ∀ (ns : List NodeText) (ps : List PotText), NotFirst isField (ns.flatMap NodeText.lexemes ++ (ps.flatMap PotText.lexemes ++ [.mark '}'])) := by
        intro ns ps
        cases ns with
        | cons n ns =>
          obtain ⟨b, w, fs⟩ := n
          cases b <;> exact notFirst_cons rfl
        | nil =>
          cases ps with
          | nil => exact notFirst_cons rfl
          | cons p ps => exact notFirst_cons rfl
      replace h := items_unique _ netField_first netField_unique _ _ (first ns ps) (first ns' ps') h
      obtain ⟨rfl, h⟩ := h
      obtain ⟨rfl, rfl, _⟩ := inside_unique (notFirst_cons rfl) (notFirst_cons rfl) (notFirst_cons rfl) (notFirst_cons rfl) h
      rfl

end Nip
