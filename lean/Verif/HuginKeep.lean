import Verif.HuginNodes

/-! # What reading a file does not change, when the list of variables has been freed -/

namespace Nip

open Res Spec Parse

variable {K : Type} {α β : Type}

/-- A property of the static variables that is kept. -/
def Keeps (P : Statics K → Prop) (m : Parse K α) : Prop := ∀ s a s', P s.g → m s = ok (a, s') → P s'.g

/-- There is no success from static variables with this property. -/
def Never (P : Statics K → Prop) (m : Parse K α) : Prop := ∀ s a s', P s.g → m s ≠ ok (some a, s')

section
variable {P : Statics K → Prop}

theorem keeps_pure (a : α) : Keeps P (Pure.pure a : Parse K α) := by
  intro s b s' h e
  cases e
  exact h

theorem bind_cases {m : Parse K α} {f : α → Parse K β} {s s' : PState K} {b : Option β} (h : (m >>= f) s = ok (b, s')) :
    (m s = ok (none, s') ∧ b = none) ∨ ∃ a s'', m s = ok (some a, s'') ∧ f a s'' = ok (b, s') := by
  change (m s >>= fun p => match p.1 with | none => ok (none, p.2) | some a => f a p.2) = _ at h
  cases hm : m s with
  | ub => rw [hm] at h; cases h
  | ok p =>
    obtain ⟨a, s''⟩ := p
    rw [hm] at h
    cases a with
    | none => cases h; exact Or.inl ⟨rfl, rfl⟩
    | some a => exact Or.inr ⟨a, s'', rfl, h⟩

theorem keeps_bind {m : Parse K α} {f : α → Parse K β} (hm : Keeps P m) (hf : ∀ a, Keeps P (f a)) : Keeps P (m >>= f) := by
  intro s b s' h e
  rcases bind_cases e with ⟨e1, _⟩ | ⟨a, s'', e1, e2⟩
  · exact hm s _ _ h e1
  · exact hf a s'' _ _ (hm s _ _ h e1) e2

theorem never_first {m : Parse K α} {f : α → Parse K β} (hm : Never P m) : Never P (m >>= f) := by
  intro s b s' h e
  rcases bind_cases e with ⟨_, e1⟩ | ⟨a, s'', e1, e2⟩
  · cases e1
  · exact hm s _ _ h e1

theorem never_bind {m : Parse K α} {f : α → Parse K β} (hm : Keeps P m) (hf : ∀ a, Never P (f a)) : Never P (m >>= f) := by
  intro s b s' h e
  rcases bind_cases e with ⟨_, e1⟩ | ⟨a, s'', e1, e2⟩
  · cases e1
  · exact hf a s'' _ _ (hm s _ _ h e1) e2

theorem keeps_abort : Keeps P (abort : Parse K α) := by
  intro s b s' h e
  cases e
  exact h

theorem never_abort : Never P (abort : Parse K α) := by
  intro s b s' h e
  cases e

theorem keeps_crash : Keeps P (crash : Parse K α) := by
  intro s b s' h e
  cases e

theorem keeps_run (x : Res α) : Keeps P (run x : Parse K α) := by
  intro s b s' h e
  unfold run at e
  cases x with
  | ub => cases e
  | ok a => cases e; exact h

theorem keeps_statics : Keeps P (statics : Parse K (Statics K)) := by
  intro s b s' h e
  cases e
  exact h

theorem keeps_assign {f : Statics K → Statics K} (hf : ∀ g, P g → P (f g)) : Keeps P (assign f) := by
  intro s b s' h e
  cases e
  exact hf _ h

theorem keeps_peek : Keeps P (peek : Parse K (Option Lexeme)) := by
  intro s b s' h e
  cases e
  exact h

theorem keeps_expect (t : Lexeme) : Keeps P (expect t : Parse K Unit) := by
  intro s b s' h e
  unfold expect at e
  cases hr : s.rest with
  | nil => rw [hr] at e; cases e; exact h
  | cons u r =>
    rw [hr] at e
    simp only at e
    split at e <;> cases e <;> exact h

theorem keeps_name : Keeps P (takeName : Parse K (List Char)) := by
  intro s b s' h e
  unfold takeName at e
  split at e <;> cases e <;> exact h

theorem keeps_text : Keeps P (takeText : Parse K (List Char)) := by
  intro s b s' h e
  unfold takeText at e
  split at e <;> cases e <;> exact h

theorem keeps_number : Keeps P (takeNumber : Parse K (List Char)) := by
  intro s b s' h e
  unfold takeNumber at e
  split at e <;> cases e <;> exact h

theorem keeps_ignored : Keeps P (ignoredNumbers : Parse K Unit) := by
  intro s b s' h e
  cases e
  exact h

theorem keeps_value : Keeps P (valueRule : Parse K Unit) := by
  unfold valueRule
  refine keeps_bind keeps_peek fun t => ?_
  split
  · exact keeps_bind keeps_text fun _ => keeps_pure _
  · exact keeps_ignored

theorem keeps_unknown : Keeps P (unknownDeclaration : Parse K Unit) := by
  unfold unknownDeclaration
  exact keeps_bind keeps_name fun _ => keeps_bind (keeps_expect _) fun _ => keeps_bind keeps_value fun _ => keeps_expect _

theorem keeps_textDecl (k : Keyword) : Keeps P (textDeclaration k : Parse K (List Char)) := by
  unfold textDeclaration
  exact keeps_bind (keeps_expect _) fun _ => keeps_bind (keeps_expect _) fun _ => keeps_bind keeps_text fun _ => keeps_bind (keeps_expect _) fun _ => keeps_pure _

theorem keeps_pair (num : Numerals K) (k : Keyword) : Keeps P (pairDeclaration num k) := by
  unfold pairDeclaration
  refine keeps_bind (keeps_expect _) fun _ => keeps_bind (keeps_expect _) fun _ => keeps_bind (keeps_expect _) fun _ => keeps_bind keeps_number fun _ =>
    keeps_bind keeps_number fun _ => keeps_bind (keeps_expect _) fun _ => keeps_bind (keeps_expect _) fun _ => ?_
  split
  · exact keeps_pure _
  · exact keeps_crash

end

/-- the list of variables was freed -/
def VarsFreed (g : Statics K) : Prop := g.vars = .freed

theorem keeps_strings : Keeps VarsFreed (strings : Parse K Unit) := by
  intro s b s' h e
  cases e
  exact h

theorem keeps_states : Keeps VarsFreed (statesDeclaration : Parse K Unit) := by
  unfold statesDeclaration
  refine keeps_bind (keeps_expect _) fun _ => keeps_bind (keeps_expect _) fun _ => keeps_bind (keeps_expect _) fun _ => keeps_bind keeps_strings fun _ =>
    keeps_bind (keeps_expect _) fun _ => keeps_bind (keeps_expect _) fun _ => keeps_bind keeps_statics fun g => ?_
  split
  · exact keeps_crash
  · exact keeps_assign fun g h => h

theorem keeps_nodeParams (num : Numerals K) : ∀ fuel, Keeps VarsFreed (nodeParams num fuel)
  | 0 => keeps_abort
  | fuel + 1 => by
    have ih := keeps_nodeParams num fuel
    unfold nodeParams
    refine keeps_bind keeps_peek fun t => ?_
    split
    · exact keeps_bind keeps_unknown fun _ => ih
    · exact keeps_bind keeps_states fun _ => ih
    · exact keeps_bind (keeps_textDecl _) fun _ => keeps_bind ih fun _ => keeps_assign fun g h => h
    · exact keeps_bind (keeps_textDecl _) fun _ => keeps_bind ih fun _ => keeps_assign fun g h => h
    · exact keeps_bind (keeps_pair num _) fun _ => keeps_bind (keeps_assign fun g h => h) fun _ => ih
    · exact keeps_pure _

theorem keeps_finishNode (name : List Char) : Keeps VarsFreed (finishNode name : Parse K Unit) := by
  intro s b s' h e
  obtain ⟨g, r⟩ := s
  unfold finishNode at e
  rw [run_some (run_statics _)] at e
  have hv : g.vars = .freed := h
  rw [hv] at e
  cases hl : g.label with
  | freed => rw [hl] at e; cases e
  | null =>
    rw [hl] at e
    cases hs : g.states with
    | none => rw [hs] at e; cases e; exact h
    | some l => rw [hs] at e; cases e
  | live w =>
    rw [hl] at e
    cases hs : g.states with
    | none => rw [hs] at e; cases e; exact h
    | some l => rw [hs] at e; cases e

theorem keeps_unsupported : Keeps VarsFreed (unsupported : Parse K Unit) := by
  unfold unsupported
  refine keeps_bind keeps_statics fun g => ?_
  split
  · exact keeps_crash
  · exact keeps_bind (keeps_assign fun g h => h) fun _ => keeps_abort

theorem keeps_node (num : Numerals K) (fuel : Nat) (k : Keyword) : Keeps VarsFreed (nodeDeclaration num fuel k) := by
  have key : Keeps VarsFreed (do
      let n ← takeName
      expect (.mark '{')
      nodeParams num fuel
      expect (.mark '}')
      if k = .node ∨ k = .discrete then finishNode n else unsupported : Parse K Unit) := by
    refine keeps_bind keeps_name fun n => keeps_bind (keeps_expect _) fun _ => keeps_bind (keeps_nodeParams num fuel) fun _ => keeps_bind (keeps_expect _) fun _ => ?_
    split
    · exact keeps_finishNode n
    · exact keeps_unsupported
  unfold nodeDeclaration
  refine keeps_bind (keeps_expect _) fun _ => ?_
  by_cases h : k = .discrete ∨ k = .continuous
  · dsimp only
    rw [if_pos h]
    exact keeps_bind (keeps_expect _) fun _ => key
  · dsimp only
    rw [if_neg h]
    exact key

theorem keeps_stop : Keeps VarsFreed (nodes.stop : Parse K Unit) ∧ Never VarsFreed (nodes.stop : Parse K Unit) := by
  constructor
  · intro s b s' h e
    have hv : s.g.vars = .freed := h
    unfold nodes.stop at e
    rw [run_some (run_statics _), hv] at e
    cases e
  · intro s b s' h e
    have hv : s.g.vars = .freed := h
    unfold nodes.stop at e
    rw [run_some (run_statics _), hv] at e
    cases e

theorem keeps_nodes (num : Numerals K) : ∀ fuel, Keeps VarsFreed (nodes num fuel) ∧ Never VarsFreed (nodes num fuel)
  | 0 => ⟨keeps_abort, never_abort⟩
  | fuel + 1 => by
    obtain ⟨ih1, ih2⟩ := keeps_nodes num fuel
    unfold nodes
    constructor
    · refine keeps_bind keeps_peek fun t => ?_
      split
      · split
        · exact keeps_bind (keeps_node num fuel _) fun _ => ih1
        · exact keeps_stop.1
      · exact keeps_stop.1
    · refine never_bind keeps_peek fun t => ?_
      split
      · split
        · exact never_bind (keeps_node num fuel _) fun _ => ih2
        · exact keeps_stop.2
      · exact keeps_stop.2

variable [Field K] [LinearOrder K]

theorem keeps_parameters (num : Numerals K) : ∀ fuel, Keeps VarsFreed (parameters num fuel)
  | 0 => keeps_abort
  | fuel + 1 => by
    have ih := keeps_parameters num fuel
    unfold parameters
    refine keeps_bind keeps_peek fun t => ?_
    split
    · exact keeps_bind (keeps_pair num _) fun _ => keeps_bind (keeps_assign fun g h => h) fun _ => ih
    · exact keeps_bind keeps_unknown fun _ => ih
    · exact keeps_pure _

theorem keeps_of_never {P : Statics K → Prop} {m : Parse K α} {f : α → Parse K β} (h1 : Keeps P m) (h2 : Never P m) : Keeps P (m >>= f) := by
  intro s b s' h e
  rcases bind_cases e with ⟨e1, _⟩ | ⟨a, s'', e1, e2⟩
  · exact h1 s _ _ h e1
  · exact absurd e1 (h2 s _ _ h)

/-- After the list of variables was freed, no file is read successfully, and this stays so. -/
theorem keeps_input (num : Numerals K) (ptr fuel : Nat) : Keeps VarsFreed (input num ptr fuel) ∧ Never VarsFreed (input num ptr fuel) := by
  obtain ⟨h1, h2⟩ := keeps_nodes num fuel
  constructor
  · unfold input
    refine keeps_bind keeps_peek fun t => ?_
    split
    · exact keeps_bind (keeps_expect _) fun _ => keeps_bind keeps_name fun _ => keeps_bind (keeps_expect _) fun _ => keeps_bind (keeps_parameters num fuel) fun _ =>
        keeps_of_never h1 h2
    · split
      · exact keeps_bind (keeps_expect _) fun _ => keeps_bind (keeps_expect _) fun _ => keeps_bind (keeps_parameters num fuel) fun _ =>
          keeps_bind (keeps_expect _) fun _ => keeps_of_never h1 h2
      · exact keeps_of_never h1 h2
  · unfold input
    refine never_bind keeps_peek fun t => ?_
    split
    · exact never_bind (keeps_expect _) fun _ => never_bind keeps_name fun _ => never_bind (keeps_expect _) fun _ => never_bind (keeps_parameters num fuel) fun _ =>
        never_first h2
    · split
      · exact never_bind (keeps_expect _) fun _ => never_bind (keeps_expect _) fun _ => never_bind (keeps_parameters num fuel) fun _ =>
          never_bind (keeps_expect _) fun _ => never_first h2
      · exact never_first h2

/-- A success leaves the list of variables alive. -/
theorem input_vars {num : Numerals K} {ptr fuel : Nat} {s s' : PState K} {m : ReadModel K} (h : input num ptr fuel s = ok (some m, s')) : ∃ l, s'.g.vars = .live l := by
  have hfin : ∀ {s s' : PState K} {m : ReadModel K}, finishInput ptr s = ok (some m, s') → ∃ l, s'.g.vars = .live l := by
    intro s s' m h
    obtain ⟨g, r⟩ := s
    unfold finishInput theVars at h
    rcases bind_cases h with ⟨_, h1⟩ | ⟨a, s1, h1, h2⟩
    · cases h1
    rw [run_some (run_statics _)] at h1
    cases hv : g.vars with
    | null => rw [hv] at h1; cases h1
    | freed => rw [hv] at h1; cases h1
    | live l =>
      rw [hv] at h1
      cases h1
      rw [run_some (run_statics _)] at h2
      cases hp : g.pots with
      | null => simp only [hp] at h2; cases h2
      | freed => simp only [hp] at h2; cases h2
      | live pots =>
        simp only [hp] at h2
        split at h2
        · cases h2
        · cases h2
        · cases h2
        · cases h2
        · split at h2
          · cases h2
          · cases h2
          · cases h2; exact ⟨_, hv⟩
  unfold input at h
  rcases bind_cases h with ⟨_, h1⟩ | ⟨t, s1, h1, h2⟩
  · cases h1
  clear h h1
  split at h2
  · obtain ⟨_, h2⟩ | ⟨_, s2, _, h3⟩ := bind_cases h2
    · cases h2
    obtain ⟨_, h3⟩ | ⟨_, s3, _, h4⟩ := bind_cases h3
    · cases h3
    obtain ⟨_, h4⟩ | ⟨_, s4, _, h5⟩ := bind_cases h4
    · cases h4
    obtain ⟨_, h5⟩ | ⟨_, s5, _, h6⟩ := bind_cases h5
    · cases h5
    obtain ⟨_, h6⟩ | ⟨_, s6, _, h7⟩ := bind_cases h6
    · cases h6
    obtain ⟨_, h7⟩ | ⟨_, s7, _, h8⟩ := bind_cases h7
    · cases h7
    obtain ⟨_, h8⟩ | ⟨_, s8, _, h9⟩ := bind_cases h8
    · cases h8
    obtain ⟨_, h9⟩ | ⟨m', s9, h9, h10⟩ := bind_cases h9
    · cases h9
    obtain ⟨_, h10⟩ | ⟨_, s10, h10, h11⟩ := bind_cases h10
    · cases h10
    cases h11
    obtain ⟨l, hl⟩ := hfin h9
    unfold endOfFile at h10
    split at h10 <;> cases h10
    exact ⟨l, hl⟩
  · have key : ∀ {s1 : PState K}, (do nodes num fuel; potentials num fuel; let last ← readLookahead; let m ← finishInput ptr; if last then return m else abort : Parse K (ReadModel K)) s1 =
        ok (some m, s') → ∃ l, s'.g.vars = .live l := by
      intro s1 h2
      obtain ⟨_, h2⟩ | ⟨_, s2, _, h3⟩ := bind_cases h2
      · cases h2
      obtain ⟨_, h3⟩ | ⟨_, s3, _, h4⟩ := bind_cases h3
      · cases h3
      obtain ⟨_, h4⟩ | ⟨last, s4, _, h5⟩ := bind_cases h4
      · cases h4
      obtain ⟨_, h5⟩ | ⟨_, s5, h5, h6⟩ := bind_cases h5
      · cases h5
      cases last with
      | true => cases h6; exact hfin h5
      | false => cases h6
    split at h2
    · obtain ⟨_, h2⟩ | ⟨_, s2, _, h3⟩ := bind_cases h2
      · cases h2
      obtain ⟨_, h3⟩ | ⟨_, s3, _, h4⟩ := bind_cases h3
      · cases h3
      obtain ⟨_, h4⟩ | ⟨_, s4, _, h5⟩ := bind_cases h4
      · cases h4
      obtain ⟨_, h5⟩ | ⟨_, s5, _, h6⟩ := bind_cases h5
      · cases h5
      exact key h6
    · exact key h2

end Nip
