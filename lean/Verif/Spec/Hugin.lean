import Verif.Spec.Tokens

/-!
# What a network file looks like

A network file is a sequence of lexemes.  They are laid out in lines, with white space between them and comments at the ends of lines.
Nothing here refers to the model of the C code.
-/

namespace Nip.Spec

/-- the reserved words -/
inductive Keyword where
  | net | klass | nodeSize | data | utility | decision | discrete | continuous | node | label | position | states | next | potential | normal
deriving Repr, DecidableEq

/-- how a reserved word is spelled -/
def Keyword.spell : Keyword → List Char
  | net => "net".toList
  | klass => "class".toList
  | nodeSize => "node_size".toList
  | data => "data".toList
  | utility => "utility".toList
  | decision => "decision".toList
  | discrete => "discrete".toList
  | continuous => "continuous".toList
  | node => "node".toList
  | label => "label".toList
  | position => "position".toList
  | states => "states".toList
  | next => "NIP_next".toList
  | potential => "potential".toList
  | normal => "normal".toList

/-- A unit of meaning: a reserved word, a name, a number (as it is written), a text in quotes, or a mark. -/
inductive Lexeme where
  | key (k : Keyword)
  | name (w : List Char)
  | number (w : List Char)
  | text (w : List Char)
  | mark (c : Char)
deriving Repr, DecidableEq

/-- how a lexeme is spelled -/
def Lexeme.spell : Lexeme → List Char
  | key k => k.spell
  | name w => w
  | number w => w
  | text w => '"' :: w ++ ['"']
  | mark c => [c]

/-- the marks that need no white space around them -/
def separators : List Char := "(){}=,;".toList

/-- characters that may be part of a name after the first one -/
def inName (c : Char) : Bool := c.isAlphanum || c == '_' || c == '-' || c == '.'

/-- A name: it begins with a letter and is no reserved word. -/
def IsName (w : List Char) : Prop :=
  (∃ c r, w = c :: r ∧ c.isAlpha = true ∧ ∀ d ∈ r, inName d = true) ∧ ∀ k : Keyword, w ≠ k.spell

/-- The word begins with `inf` or `nan`, in small or capital letters. -/
def LooksSpecial (w : List Char) : Prop := ∃ p r, w = p ++ r ∧ (p.map Char.toLower = "inf".toList ∨ p.map Char.toLower = "nan".toList)

/-- digits -/
def Digits (w : List Char) : Prop := ∀ c ∈ w, c.isDigit = true

/-- nothing, plus or minus -/
def Sign (w : List Char) : Prop := w = [] ∨ w = ['-'] ∨ w = ['+']

/-- A decimal number: digits, perhaps with a sign, a point among them and an exponent. -/
def IsNumber (w : List Char) : Prop :=
  ∃ sign whole fraction exponent, w = sign ++ whole ++ fraction ++ exponent ∧ Sign sign ∧ Digits whole ∧
    ((whole ≠ [] ∧ fraction = []) ∨ ∃ d, fraction = '.' :: d ∧ Digits d ∧ (whole ≠ [] ∨ d ≠ [])) ∧
    (exponent = [] ∨ ∃ e s d, exponent = e :: s ++ d ∧ (e = 'e' ∨ e = 'E') ∧ Sign s ∧ Digits d ∧ d ≠ [])

/-- Lexemes that can be written. -/
def Lexeme.Legal : Lexeme → Prop
  | key _ => True
  | name w => IsName w ∧ ¬ LooksSpecial w
  | number w => IsNumber w
  | text w => '"' ∉ w ∧ '\n' ∉ w
  | mark c => c ∈ separators ∨ c = '|'

/-- Lexemes that need no white space around them: separators and quoted texts. -/
def Lexeme.closed : Lexeme → Bool
  | text _ => true
  | mark c => separators.contains c
  | _ => false

/-- a separator -/
def Lexeme.isSeparator : Lexeme → Bool
  | mark c => separators.contains c
  | _ => false

/-- a quoted text that contains a separator -/
def Lexeme.hides : Lexeme → Bool
  | text w => w.any separators.contains
  | _ => false

/-- White space inside a line. -/
def Gap (w : List Char) : Prop := ∀ c ∈ w, whitespace c = true ∧ c ≠ '\n'

/-- A line: white space, lexemes each followed by white space, and perhaps a comment. -/
structure Line where
  lead : List Char
  items : List (Lexeme × List Char)
  comment : Option (List Char)

/-- the characters of a line -/
def Line.text (l : Line) : List Char :=
  l.lead ++ l.items.flatMap (fun p => p.1.spell ++ p.2) ++ (match l.comment with | none => [] | some w => '%' :: w)

/-- Neighbours on a line: words and numbers are kept apart, also from a comment.  A quoted text with a separator inside is followed at once
by a separator. -/
def Neighbours (comment : Bool) : List (Lexeme × List Char) → Prop
  | [] => True
  | [(a, g)] => (comment = true → g ≠ [] ∨ a.closed = true) ∧ a.hides = false
  | (a, g) :: (b, h) :: r =>
    (g ≠ [] ∨ a.closed = true ∨ b.closed = true) ∧ (a.hides = true → g = [] ∧ b.isSeparator = true) ∧ Neighbours comment ((b, h) :: r)

/-- A line that can be written; the buffer of the program has room for 9999 characters. -/
structure Line.Legal (l : Line) : Prop where
  lead : Gap l.lead
  items : ∀ p ∈ l.items, p.1.Legal ∧ Gap p.2
  neighbours : Neighbours l.comment.isSome l.items
  comment : ∀ w, l.comment = some w → '\n' ∉ w
  short : l.text.length < 9999

/-- Lexemes as one would expect them: any name. -/
def Lexeme.Proper : Lexeme → Prop
  | name w => IsName w
  | a => a.Legal

/-- Lexemes that should need no white space around them: marks and quoted texts. -/
def Lexeme.delimited : Lexeme → Bool
  | text _ => true
  | mark _ => true
  | _ => false

/-- Neighbours as one would expect them: words and numbers are kept apart. -/
def Apart : List (Lexeme × List Char) → Prop
  | [] => True
  | [_] => True
  | (a, g) :: (b, h) :: r => (g ≠ [] ∨ a.delimited = true ∨ b.delimited = true) ∧ Apart ((b, h) :: r)

/-- A line as one would expect it. -/
structure Line.Proper (l : Line) : Prop where
  lead : Gap l.lead
  items : ∀ p ∈ l.items, p.1.Proper ∧ Gap p.2
  apart : Apart l.items
  comment : ∀ w, l.comment = some w → '\n' ∉ w
  short : l.text.length < 9999

/-- the text of a file -/
def fileText (ls : List Line) : List Char := ls.flatMap (fun l => l.text ++ ['\n'])

/-- the lexemes of a file -/
def fileLexemes (ls : List Line) : List Lexeme := ls.flatMap (fun l => l.items.map (·.1))

end Nip.Spec
