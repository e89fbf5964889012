import Verif.HuginParseLemmas

/-! # Reading the nodes of a network file -/

namespace Nip

open Res Spec Parse

variable {K : Type}

/-- the list behind a static pointer -/
def Ptr.list {α : Type} : Ptr (List α) → List α
  | .live l => l
  | _ => []

/-- a list after elements were added -/
def Ptr.add {α : Type} (p : Ptr (List α)) (l : List α) : Ptr (List α) := if l = [] then p else .live (p.list ++ l)

theorem Ptr.add_nil {α : Type} (p : Ptr (List α)) : p.add [] = p := if_pos rfl

theorem Ptr.add_add {α : Type} (p : Ptr (List α)) (a b : List α) : (p.add a).add b = p.add (a ++ b) := by
  unfold Ptr.add
  by_cases ha : a = []
  · subst ha; simp
  · by_cases hb : b = []
    · subst hb; simp [ha]
    · simp [ha, hb, Ptr.list]

theorem Ptr.add_freed {α : Type} {p : Ptr (List α)} (h : p ≠ .freed) (l : List α) : p.add l ≠ .freed := by
  unfold Ptr.add
  split
  · exact h
  · simp

/-- the fields found in a list of fields -/
theorem afterFields_eq (num : Numerals K) (fs : List NodeField) : ∀ (g : Statics K), fs.Pairwise (fun a b => a.same b = false) →
    afterFields num g fs = { g with
      states := (fs.findSome? NodeField.statesOf).or g.states
      label := ((fs.findSome? NodeField.labelOf).map Ptr.live).getD g.label
      persistence := (fs.findSome? NodeField.nextOf).or g.persistence
      posX := ((fs.findSome? NodeField.positionOf).map (fun p => (num.int p.1).getD 0)).getD g.posX
      posY := ((fs.findSome? NodeField.positionOf).map (fun p => (num.int p.2).getD 0)).getD g.posY } := by
  induction fs with
  | nil => intro g _; rfl
  | cons f fs ih =>
    intro g hp
    obtain ⟨h1, h2⟩ := List.pairwise_cons.1 hp
    cases f with
    | states ns =>
      have : fs.findSome? NodeField.statesOf = none := by
        rw [List.findSome?_eq_none_iff]
        intro f hf
        have := h1 f hf
        cases f <;> simp_all [NodeField.same, NodeField.statesOf, NodeField.positionOf]
      rw [afterFields, ih _ h2]
      simp [List.findSome?_cons, NodeField.statesOf, NodeField.labelOf, NodeField.nextOf, NodeField.positionOf, this]
    | label w =>
      rw [afterFields, ih _ h2]
      simp [List.findSome?_cons, NodeField.statesOf, NodeField.labelOf, NodeField.nextOf, NodeField.positionOf]
    | next w =>
      rw [afterFields, ih _ h2]
      simp [List.findSome?_cons, NodeField.statesOf, NodeField.labelOf, NodeField.nextOf, NodeField.positionOf]
    | position x y =>
      have : fs.findSome? NodeField.positionOf = none := by
        rw [List.findSome?_eq_none_iff]
        intro f hf
        have := h1 f hf
        cases f <;> simp_all [NodeField.same, NodeField.statesOf, NodeField.positionOf]
      rw [afterFields, ih _ h2]
      simp [List.findSome?_cons, NodeField.statesOf, NodeField.labelOf, NodeField.nextOf, NodeField.positionOf, this]
    | other m v =>
      rw [afterFields, ih _ h2]
      simp [List.findSome?_cons, NodeField.statesOf, NodeField.labelOf, NodeField.nextOf, NodeField.positionOf]

/-- the variable made from a node -/
def nodeRec (num : Numerals K) (id : Nat) (n : NodeText) : NodeRec :=
  { id := id, symbol := cutText n.name, label := cutText (n.label.getD " ".toList), states := n.states.map cutText
    posX := (n.position.map (fun p => (num.int p.1).getD 0)).getD 100, posY := (n.position.map (fun p => (num.int p.2).getD 0)).getD 100 }

/-- the variables made from nodes -/
def recsFrom (num : Numerals K) : Nat → List NodeText → List NodeRec
  | _, [] => []
  | i, n :: ns => nodeRec num i n :: recsFrom num (i + 1) ns

/-- the links to successors -/
def linksFrom : Nat → List NodeText → List (Nat × List Char)
  | _, [] => []
  | i, n :: ns => (n.next.map (fun w => (i, w))).toList ++ linksFrom (i + 1) ns

/-- between two nodes -/
structure Between (g : Statics K) : Prop where
  strings : g.strings = []
  states : g.states = none
  persistence : g.persistence = none
  posX : g.posX = 100
  posY : g.posY = 100
  vars : g.vars ≠ .freed
  links : g.links ≠ .freed

/-- the static variables after a node -/
def afterNode (num : Numerals K) (g : Statics K) (n : NodeText) : Statics K :=
  { g with nextId := g.nextId + 1, vars := g.vars.add [nodeRec num g.nextId n], links := g.links.add (n.next.map (fun w => (g.nextId, w))).toList
           label := if n.label.isSome then .freed else g.label }

theorem afterNode_between (num : Numerals K) {g : Statics K} (h : Between g) (n : NodeText) : Between (afterNode num g n) :=
  ⟨h.strings, h.states, h.persistence, h.posX, h.posY, Ptr.add_freed h.vars [nodeRec num g.nextId n],
    Ptr.add_freed h.links (n.next.map (fun w => (g.nextId, w))).toList⟩

theorem readable_of_sensible {num : Numerals K} {n : NodeText} (h : n.Sensible num.int) : ∀ f ∈ n.fields, NodeField.Readable num f := by
  intro f hf
  obtain ⟨a, b, hab⟩ := List.append_of_mem hf
  have ho := h.once
  rw [hab, List.pairwise_append] at ho
  cases f with
  | states ns =>
    have ha : a.findSome? NodeField.statesOf = none := by
      rw [List.findSome?_eq_none_iff]
      intro f hf
      have := ho.2.2 f hf (.states ns) (by simp)
      cases f <;> simp_all [NodeField.same, NodeField.statesOf, NodeField.positionOf]
    have := h.states
    unfold NodeText.states at this
    rw [hab, List.findSome?_append, ha] at this
    show ns ≠ []
    simpa [List.findSome?_cons, NodeField.statesOf, NodeField.labelOf, NodeField.nextOf, NodeField.positionOf] using this
  | position x y =>
    have ha : a.findSome? NodeField.positionOf = none := by
      rw [List.findSome?_eq_none_iff]
      intro f hf
      have := ho.2.2 f hf (.position x y) (by simp)
      cases f <;> simp_all [NodeField.same, NodeField.statesOf, NodeField.positionOf]
    refine h.position (x, y) ?_
    unfold NodeText.position
    rw [hab, List.findSome?_append, ha]
    simp [List.findSome?_cons, NodeField.statesOf, NodeField.labelOf, NodeField.nextOf, NodeField.positionOf]
  | _ => trivial

theorem states_some {n : NodeText} {int : List Char → Option Nat} (h : n.Sensible int) :
    n.fields.findSome? NodeField.statesOf = some n.states := by
  have := h.states
  unfold NodeText.states at this ⊢
  generalize n.fields.findSome? NodeField.statesOf = q at this
  cases q with
  | none => simp at this
  | some l => rfl

/-- the action at the end of a node -/
theorem finishNode_eq (num : Numerals K) {n : NodeText} (hn : n.Sensible num.int) {g : Statics K} (hg : Between g)
    (hl : g.label = .null ∨ (g.label = .freed ∧ n.label ≠ none)) (r : List Lexeme) :
    finishNode n.name ⟨afterFields num g n.fields, r⟩ = ok (some (), ⟨afterNode num g n, r⟩) := by
  rw [afterFields_eq num n.fields g hn.once]
  rw [states_some hn]
  rw [show n.fields.findSome? NodeField.labelOf = n.label from rfl,
    show n.fields.findSome? NodeField.nextOf = n.next from rfl,
    show n.fields.findSome? NodeField.positionOf = n.position from rfl]
  unfold finishNode afterNode nodeRec Ptr.add
  obtain ⟨h1, h2, h3, h4, h5, h6, h7⟩ := hg
  obtain ⟨posX, posY, sizeX, sizeY, doubles, strings, states, label, persistence, vars, parents, pots, links, nextId⟩ := g
  simp only at h1 h2 h3 h4 h5 h6 h7 hl
  subst h1 h2 h3 h4 h5
  rw [run_some (run_statics _)]
  have hlab : ∃ q, q = n.label := ⟨_, rfl⟩
  obtain ⟨q, hq⟩ := hlab
  have hnx : ∃ u, u = n.next := ⟨_, rfl⟩
  obtain ⟨u, hu⟩ := hnx
  simp only [← hq, ← hu] at hl ⊢
  cases vars with
  | freed => exact absurd rfl h6
  | _ =>
    cases links with
    | freed => exact absurd rfl h7
    | _ =>
      cases u <;> cases q <;> rcases hl with rfl | ⟨rfl, hl⟩ <;> first | rfl | exact absurd rfl hl

/-- a node -/
theorem nodeDeclaration_eq (num : Numerals K) {n : NodeText} (hn : n.Sensible num.int) {g : Statics K} (hg : Between g)
    (hl : g.label = .null ∨ (g.label = .freed ∧ n.label ≠ none)) {fuel : Nat} (hf : n.fields.length < fuel) (r : List Lexeme) :
    nodeDeclaration num fuel (if n.discrete then .discrete else .node) ⟨g, n.lexemes ++ r⟩ = ok (some (), ⟨afterNode num g n, r⟩) := by
  have hp := fun r => nodeParams_eq num r n.fields fuel g hg.strings hf (readable_of_sensible hn)
  unfold nodeDeclaration NodeText.lexemes
  cases hd : n.discrete with
  | true =>
    simp only [if_true, List.append_assoc, List.cons_append, List.nil_append]
    rw [run_some (run_expect _ g _), if_pos (by decide), run_some (run_expect _ g _), run_some (run_name _ g _), run_some (run_expect _ g _),
      run_some (hp r), run_some (run_expect _ _ _), if_pos (by decide), finishNode_eq num hn hg hl]
  | false =>
    simp only [Bool.false_eq_true, if_false, List.append_assoc, List.cons_append, List.nil_append]
    rw [run_some (run_expect _ g _), if_neg (by decide), run_some (run_name _ g _), run_some (run_expect _ g _),
      run_some (hp r), run_some (run_expect _ _ _), if_pos (by decide), finishNode_eq num hn hg hl]

/-- the static variables after nodes -/
def afterNodes (num : Numerals K) (g : Statics K) (ns : List NodeText) : Statics K :=
  { g with nextId := g.nextId + ns.length, vars := g.vars.add (recsFrom num g.nextId ns), links := g.links.add (linksFrom g.nextId ns)
           label := if ns.any (fun n => n.label.isSome) then .freed else g.label }

theorem afterNodes_cons (num : Numerals K) (g : Statics K) (n : NodeText) (ns : List NodeText) :
    afterNodes num (afterNode num g n) ns = afterNodes num g (n :: ns) := by
  unfold afterNodes afterNode
  simp only [Ptr.add_add, List.any_cons, List.length_cons, recsFrom, linksFrom, List.cons_append, List.nil_append]
  have h1 : g.nextId + 1 + ns.length = g.nextId + (ns.length + 1) := by omega
  rw [h1]
  congr 1
  by_cases h2 : n.label.isSome = true <;> simp [h2]

theorem node_head (n : NodeText) (r : List Lexeme) : (n.lexemes ++ r).head? = some (.key (if n.discrete then .discrete else .node)) := by
  unfold NodeText.lexemes
  cases n.discrete <;> rfl

theorem fields_le (n : NodeText) : n.fields.length + 4 ≤ n.lexemes.length := by
  unfold NodeText.lexemes
  have : n.fields.length ≤ (n.fields.flatMap NodeField.lexemes).length := by
    induction n.fields with
    | nil => simp
    | cons f fs ih =>
      rw [List.flatMap_cons, List.length_append, List.length_cons]
      have : 1 ≤ f.lexemes.length := by cases f <;> simp [NodeField.lexemes]
      omega
  simp only [List.length_append, List.length_cons, List.length_nil]
  omega

/-- the nodes -/
theorem nodes_eq (num : Numerals K) {r : List Lexeme} (hr : ∀ k, r.head? = some (.key k) → k = .potential) (ns : List NodeText) :
    ∀ (fuel : Nat) (g : Statics K), Between g → (∀ n ∈ ns, n.Sensible num.int) →
    (g.label = .null ∨ (g.label = .freed ∧ ∀ n ∈ ns, n.label ≠ none)) → ns.Pairwise (fun a b => a.label ≠ none → b.label ≠ none) →
    (ns = [] → g.vars ≠ .null) → (ns.flatMap NodeText.lexemes).length < fuel →
    nodes num fuel ⟨g, ns.flatMap NodeText.lexemes ++ r⟩ = ok (some (), ⟨afterNodes num g ns, r⟩) := by
  induction ns with
  | nil =>
    intro fuel g hg _ _ _ hv hf
    obtain ⟨m, rfl⟩ : ∃ m, fuel = m + 1 := ⟨fuel - 1, by simp at hf; omega⟩
    have hstop : nodes.stop ⟨g, r⟩ = ok (some (), ⟨afterNodes num g [], r⟩) := by
      unfold nodes.stop afterNodes
      rw [run_some (run_statics _)]
      simp only [recsFrom, linksFrom, Ptr.add_nil]
      have h1 := hg.vars
      have h2 := hv rfl
      cases h : g.vars with
      | live l => simp only [← h]; rfl
      | null => exact absurd h h2
      | freed => exact absurd h h1
    unfold nodes
    rw [run_some (run_peek _)]
    simp only [List.flatMap_nil, List.nil_append]
    generalize hq : r.head? = q at hr
    rcases q with _ | t
    · exact hstop
    · cases t with
      | key k =>
        have := hr k rfl
        subst this
        simp only
        rw [if_neg (by decide)]
        exact hstop
      | _ => exact hstop
  | cons n ns ih =>
    intro fuel g hg hs hl hp _ hf
    obtain ⟨m, rfl⟩ : ∃ m, fuel = m + 1 := ⟨fuel - 1, by simp at hf; omega⟩
    rw [List.flatMap_cons, List.length_append] at hf
    have hfl := fields_le n
    obtain ⟨hp1, hp2⟩ := List.pairwise_cons.1 hp
    rw [List.flatMap_cons, List.append_assoc]
    unfold nodes
    rw [run_some (run_peek _)]
    simp only [node_head]
    rw [if_pos (by cases n.discrete <;> decide)]
    rw [run_some (nodeDeclaration_eq num (hs n (by simp)) hg (by
      rcases hl with hl | ⟨hl, h⟩
      · exact Or.inl hl
      · exact Or.inr ⟨hl, h n (by simp)⟩) (by omega) _)]
    rw [ih m (afterNode num g n) (afterNode_between num hg n) (fun k hk => hs k (by simp [hk])) ?_ hp2 ?_ (by omega)]
    · rw [afterNodes_cons]
    · unfold afterNode
      simp only
      rcases hl with hl | ⟨hl, h⟩
      · cases hq : n.label with
        | none => left; simpa using hl
        | some w => right; exact ⟨by simp, fun k hk => hp1 k hk (by simp [hq])⟩
      · right
        refine ⟨by split; rfl; exact hl, fun k hk => h k (by simp [hk])⟩
    · intro _
      unfold afterNode Ptr.add
      simp

theorem nodes_length {n : NodeText} {ns : List NodeText} (h : n ∈ ns) : n.fields.length + 3 + ns.length ≤ (ns.flatMap NodeText.lexemes).length := by
  have hle : ∀ l : List NodeText, l.length ≤ (l.flatMap NodeText.lexemes).length := by
    intro l
    induction l with
    | nil => simp
    | cons m l ih =>
      rw [List.flatMap_cons, List.length_append, List.length_cons]
      have := fields_le m
      omega
  obtain ⟨a, b, rfl⟩ := List.append_of_mem h
  rw [List.flatMap_append, List.flatMap_cons]
  simp only [List.length_append, List.length_cons]
  have h1 := hle a
  have h2 := hle b
  have h3 := fields_le n
  omega

/-- the first nodes -/
theorem nodes_prefix (num : Numerals K) (r : List Lexeme) (fuel : Nat) (ns : List NodeText) : ∀ (g : Statics K), Between g → (∀ n ∈ ns, n.Sensible num.int) →
    (g.label = .null ∨ (g.label = .freed ∧ ∀ n ∈ ns, n.label ≠ none)) → ns.Pairwise (fun a b => a.label ≠ none → b.label ≠ none) →
    (∀ n ∈ ns, n.fields.length < fuel) →
    nodes num (ns.length + fuel) ⟨g, ns.flatMap NodeText.lexemes ++ r⟩ = nodes num fuel ⟨afterNodes num g ns, r⟩ := by
  induction ns with
  | nil =>
    intro g _ _ _ _ _
    unfold afterNodes
    simp only [recsFrom, linksFrom, Ptr.add_nil, List.any_nil, List.length_nil, Nat.zero_add, Nat.add_zero, List.flatMap_nil, List.nil_append, Bool.false_eq_true, if_false]
  | cons n ns ih =>
    intro g hg hs hl hp hf
    obtain ⟨hp1, hp2⟩ := List.pairwise_cons.1 hp
    rw [List.flatMap_cons, List.append_assoc, List.length_cons, show ns.length + 1 + fuel = (ns.length + fuel) + 1 by omega]
    conv_lhs => unfold nodes
    rw [run_some (run_peek _)]
    simp only [node_head]
    have h0 := hf n (by simp)
    rw [if_pos (by cases n.discrete <;> decide)]
    rw [run_some (nodeDeclaration_eq num (hs n (by simp)) hg (by
      rcases hl with hl | ⟨hl, h⟩
      · exact Or.inl hl
      · exact Or.inr ⟨hl, h n (by simp)⟩) (by omega) _)]
    rw [ih (afterNode num g n) (afterNode_between num hg n) (fun k hk => hs k (by simp [hk])) ?_ hp2 (fun k hk => hf k (by simp [hk])), afterNodes_cons]
    unfold afterNode
    simp only
    rcases hl with hl | ⟨hl, h⟩
    · cases hq : n.label with
      | none => left; simpa using hl
      | some w => right; exact ⟨by simp, fun k hk => hp1 k hk (by simp [hq])⟩
    · right
      refine ⟨by split; rfl; exact hl, fun k hk => h k (by simp [hk])⟩

/-- The action at the end of a node uses memory that was freed. -/
theorem finishNode_ub (num : Numerals K) {n : NodeText} (hn : n.Sensible num.int) {g : Statics K}
    (h : (g.label = .freed ∧ n.label = none) ∨ ((g.label = .null ∨ g.label = .freed) ∧ g.vars = .freed)) (r : List Lexeme) :
    finishNode n.name ⟨afterFields num g n.fields, r⟩ = ub := by
  rw [afterFields_eq num n.fields g hn.once, states_some hn]
  rw [show n.fields.findSome? NodeField.labelOf = n.label from rfl]
  unfold finishNode
  rw [run_some (run_statics _)]
  simp only
  rcases h with ⟨h1, h2⟩ | ⟨h1, h2⟩
  · rw [h1, h2]
    rfl
  · rw [h2]
    cases n.label with
    | some w => rfl
    | none => rcases h1 with h1 | h1 <;> rw [h1] <;> rfl

/-- a node that uses memory that was freed -/
theorem nodes_ub (num : Numerals K) {n : NodeText} (hn : n.Sensible num.int) {g : Statics K} (hg : g.strings = [])
    (h : (g.label = .freed ∧ n.label = none) ∨ ((g.label = .null ∨ g.label = .freed) ∧ g.vars = .freed)) {fuel : Nat} (hf : n.fields.length < fuel) (r : List Lexeme) :
    nodes num (fuel + 1) ⟨g, n.lexemes ++ r⟩ = ub := by
  have hp := fun r => nodeParams_eq num r n.fields fuel g hg hf (readable_of_sensible hn)
  unfold nodes
  rw [run_some (run_peek _)]
  simp only [node_head]
  rw [if_pos (by cases n.discrete <;> decide)]
  refine run_ub ?_
  unfold nodeDeclaration NodeText.lexemes
  cases hd : n.discrete with
  | true =>
    simp only [if_true, List.append_assoc, List.cons_append, List.nil_append]
    rw [run_some (run_expect _ g _), if_pos (by decide), run_some (run_expect _ g _), run_some (run_name _ g _), run_some (run_expect _ g _),
      run_some (hp r), run_some (run_expect _ _ _), if_pos (by decide), finishNode_ub num hn h]
  | false =>
    simp only [Bool.false_eq_true, if_false, List.append_assoc, List.cons_append, List.nil_append]
    rw [run_some (run_expect _ g _), if_neg (by decide), run_some (run_name _ g _), run_some (run_expect _ g _),
      run_some (hp r), run_some (run_expect _ _ _), if_pos (by decide), finishNode_ub num hn h]

end Nip
