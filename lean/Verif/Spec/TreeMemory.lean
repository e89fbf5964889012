import Mathlib.Data.List.Basic

/-!
# Cliques and separators that come and go

Cliques and separators are called 0, 1, 2, … in the order in which they are created.  A separator lies between two cliques; it is first pending, and
confirmed later.  Nothing here refers to the model of the C code.
-/

namespace Nip.Spec

/-- a separator: its name and the names of the two cliques -/
structure Border where
  name : Nat
  one : Nat
  two : Nat
deriving Repr, DecidableEq

/-- the separator lies at the clique -/
def Border.at (b : Border) (c : Nat) : Bool := b.one == c || b.two == c

/-- What there is: how many cliques and separators have been created, which cliques have not been freed, which separators are pending, and which are
confirmed (most recent first). -/
structure Grove where
  cliques : Nat
  borders : Nat
  alive : List Nat
  pending : List Border
  confirmed : List Border
deriving Repr, DecidableEq

/-- nothing -/
def Grove.none : Grove := { cliques := 0, borders := 0, alive := [], pending := [], confirmed := [] }

/-- what can be done -/
inductive GroveStep where
  | newClique
  | newBorder (a b : Nat)
  | confirm (s : Nat)
  | freeBorder (s : Nat)
  | freeClique (c : Nat)
deriving Repr, DecidableEq

/-- Is the step allowed?  A separator is made between different cliques that have not been freed; it is confirmed once, while both cliques are there;
only pending separators are freed; a clique is freed once. -/
def GroveStep.allowed (g : Grove) : GroveStep → Prop
  | newClique => True
  | newBorder a b => a ≠ b ∧ a ∈ g.alive ∧ b ∈ g.alive
  | confirm s => ∃ x ∈ g.pending, x.name = s ∧ x.one ∈ g.alive ∧ x.two ∈ g.alive
  | freeBorder s => ∃ x ∈ g.pending, x.name = s
  | freeClique c => c ∈ g.alive

/-- What there is after the step.  With a clique its confirmed separators go. -/
def GroveStep.after (g : Grove) : GroveStep → Grove
  | newClique => { g with cliques := g.cliques + 1, alive := g.cliques :: g.alive }
  | newBorder a b => { g with borders := g.borders + 1, pending := { name := g.borders, one := a, two := b } :: g.pending }
  | confirm s => { g with pending := g.pending.filter (fun x => x.name != s), confirmed := g.pending.filter (fun x => x.name == s) ++ g.confirmed }
  | freeBorder s => { g with pending := g.pending.filter (fun x => x.name != s) }
  | freeClique c => { g with alive := g.alive.filter (fun d => d != c), confirmed := g.confirmed.filter (fun x => !x.at c) }

/-- every step of the history is allowed -/
def Grove.allows : Grove → List GroveStep → Prop
  | _, [] => True
  | g, a :: h => a.allowed g ∧ (a.after g).allows h

/-- what there is after the history -/
def Grove.afterAll : Grove → List GroveStep → Grove
  | g, [] => g
  | g, a :: h => (a.after g).afterAll h

/-- the confirmed separators of a clique, most recent first -/
def Grove.bordersOf (g : Grove) (c : Nat) : List Nat := (g.confirmed.filter (fun x => x.at c)).map (fun x => x.name)

end Nip.Spec
