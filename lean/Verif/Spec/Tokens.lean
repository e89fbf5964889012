import Mathlib.Logic.ExistsUnique
import Verif.Tokens

/-!
# What the tokeniser should do

A token is a pair `(b, e)` of places in the string: it consists of the characters at the places `b, …, e - 1`.
-/

namespace Nip.Spec

/-- the tokens listed in an array of indices -/
def pairs : List Nat → List (Nat × Nat)
  | b :: e :: r => (b, e) :: pairs r
  | _ => []

/-- the character at a place -/
def charAt (s : List Char) (i : Nat) : Char := s.getD i ' '

/-- whitespace: space, tabulator, newline, vertical tabulator, form feed and carriage return -/
def whitespace (c : Char) : Bool := [' ', '\t', '\n', Char.ofNat 11, Char.ofNat 12, '\r'].contains c

/-- characters that separate tokens silently: whitespace, or just the newline if whitespace does not separate -/
def Blank (o : TokOpt) (c : Char) : Prop := if o.wspace then whitespace c = true else c = '\n'

/-- separators -/
def Separator (o : TokOpt) (c : Char) : Prop := ∃ l, o.separators = some l ∧ c ∈ l

/-- The place is inside quotes: after an opening quote, up to and including the closing quote or the newline that ends the quoted text.
A quote opens if quoting is on, it is not itself a separator and there is another quote later in the string. -/
def Inside (o : TokOpt) (s : List Char) : Nat → Prop
  | 0 => False
  | i + 1 =>
    (Inside o s i ∧ charAt s i ≠ '"' ∧ charAt s i ≠ '\n') ∨
    (¬ Inside o s i ∧ o.quoted = true ∧ charAt s i = '"' ∧ ¬ Separator o (charAt s i) ∧ ∃ j, i < j ∧ j < s.length ∧ charAt s j = '"')

/-- the token contains the place -/
def Contains (q : Nat × Nat) (i : Nat) : Prop := q.1 ≤ i ∧ i < q.2

/-- Tokens follow each other without overlap inside a string of the given length, and none is empty. -/
def InOrder (length : Nat) (tokens : List (Nat × Nat)) : Prop :=
  (∀ q ∈ tokens, q.1 < q.2 ∧ q.2 ≤ length) ∧ tokens.Pairwise (fun q r => q.2 ≤ r.1)

/-- the token is a single separator -/
def SeparatorToken (o : TokOpt) (s : List Char) (q : Nat × Nat) : Prop :=
  o.sepTokens = true ∧ q.2 = q.1 + 1 ∧ Separator o (charAt s q.1) ∧ ¬ Inside o s q.1

/-- the token is a quoted text: everything after the opening quote is inside the quotes, and it goes on until the quotes end -/
def QuotedToken (o : TokOpt) (s : List Char) (q : Nat × Nat) : Prop :=
  charAt s q.1 = '"' ∧ ¬ Inside o s q.1 ∧ (∀ i, q.1 < i → i < q.2 → Inside o s i) ∧
    (charAt s (q.2 - 1) = '"' ∨ charAt s q.2 = '\n')

/-- the token is a longest piece of plain text: without separators and whitespace, and not inside quotes -/
def PlainToken (o : TokOpt) (s : List Char) (q : Nat × Nat) : Prop :=
  (∀ i, Contains q i → ¬ Separator o (charAt s i) ∧ ¬ Blank o (charAt s i) ∧ ¬ Inside o s i) ∧
    (q.2 = s.length ∨ Separator o (charAt s q.2) ∨ Blank o (charAt s q.2) ∨ Inside o s (q.2 + 1))

/-- characters that have to be in a token: text outside quotes that is no separator, blank or quote, separators if they are tokens, and
everything inside quotes except the newline that ends it -/
def Text (o : TokOpt) (s : List Char) (i : Nat) : Prop :=
  (Inside o s i ∧ charAt s i ≠ '\n') ∨
  (¬ Inside o s i ∧ Separator o (charAt s i) ∧ o.sepTokens = true) ∨
  (¬ Inside o s i ∧ ¬ Separator o (charAt s i) ∧ ¬ Blank o (charAt s i) ∧ ¬ (o.quoted = true ∧ charAt s i = '"'))

/-- Every token is a separator, a quoted text or a longest piece of plain text, and every character that has to be in a token is in exactly
one. -/
def GoodTokens (o : TokOpt) (s : List Char) (tokens : List (Nat × Nat)) : Prop :=
  (∀ q ∈ tokens, SeparatorToken o s q ∨ QuotedToken o s q ∨ PlainToken o s q) ∧
  ∀ i < s.length, Text o s i → ∃! q, q ∈ tokens ∧ Contains q i

end Nip.Spec
