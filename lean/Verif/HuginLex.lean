import Verif.DataFile
import Verif.Spec.Hugin

/-!
# Model of the lexical analysis of network files: `nip_next_hugin_token` (`src/nipparsers.c`) and `yylex` (`src/huginnet.y`)

A file is the list of its characters.  Memory is available.  Semantic values are part of the lexemes; the value of a number is left to the
parser, a number is represented by its text.
-/

namespace Nip

open Res Spec

/-- `nip_count_tokens(last_line, NULL, 1, "(){}=,;", 7, 1, 1)`, `src/nipparsers.c:587`. -/
def huginOpt : TokOpt := { quoted := true, separators := some "(){}=,;".toList, sepTokens := true, wspace := true }

/-- The static variables of `nip_next_hugin_token`, `src/nipparsers.c:528-545`, and the part of the file that `fgets` has not read yet, as
lines.  `bounds` is the array from `indexarray` on. -/
structure LexState where
  file : List (List Char)
  line : List Char
  left : Nat
  bounds : List Nat
  readLine : Bool
deriving Repr, DecidableEq

/-- The static variables at the start of the program, `src/nipparsers.c:528-545`. -/
def LexState.initial : LexState := { file := [], line := [], left := 0, bounds := [], readLine := true }

/-- The loop `while(nip_read_line)`, `src/nipparsers.c:571-613`; `none` is the end of the file (or a failure of `nip_tokenise`). -/
def LexState.advance (st : LexState) : List (List Char) → Res (Option LexState)
  | [] => ok none
  | l :: rest => do
    let n ← countTokens huginOpt l
    if n > 0 then do
      let a ← tokenise huginOpt (some l) n
      match a with
      | none => ok none
      | some a => do
        let b ← rd a 0
        let c ← rd l b
        if c == '%' then st.advance rest
        else ok (some { file := rest, line := l, left := n, bounds := a, readLine := false })
    else st.advance rest

/-- `nip_next_hugin_token`, `src/nipparsers.c:526-649`, with an open file: the token (`none` at the end of the file) and the static variables
afterwards. -/
def LexState.nextToken (st : LexState) : Res (Option (List Char) × LexState) := do
  let r ← if st.readLine then st.advance st.file else ok (some st)
  match r with
  | none => ok (none, { st with file := [], bounds := [], left := 0 })
  | some st => do
    let token ← copyToken st.line st.bounds 0
    let st := { st with bounds := st.bounds.drop 2, left := st.left - 1 }
    if st.left = 0 then ok (some token, { st with readLine := true })
    else do
      let b ← rd st.bounds 0
      let c ← rd st.line b
      ok (some token, { st with readLine := c == '%' })

/-- The word without the sign that `strtod` accepts. -/
def dropSign : List Char → List Char
  | '-' :: r => r
  | '+' :: r => r
  | w => w

/-- The start of a number without sign, by the C standard: a digit, a point and a digit, or `inf` or `nan` in small or capital letters. -/
def beginsNumber : List Char → Bool
  | '.' :: d :: _ => d.isDigit
  | a :: b :: c :: _ => a.isDigit || [a, b, c].map Char.toLower == "inf".toList || [a, b, c].map Char.toLower == "nan".toList
  | a :: _ => a.isDigit
  | [] => false

/-- Does `strtod` find a number at the start of the (null-terminated) word?  `src/huginnet.y:986-989`.  (Words have no white space at the
start.) -/
def strtodFinds (w : List Char) : Bool := beginsNumber (dropSign w)

/-- The reserved words, `src/huginnet.y:873-962`. -/
def keywordTable : List (List Char × Keyword) :=
  [("net".toList, .net), ("node".toList, .node), ("data".toList, .data), ("label".toList, .label), ("class".toList, .klass),
    ("states".toList, .states), ("normal".toList, .normal), ("utility".toList, .utility), ("position".toList, .position),
    ("decision".toList, .decision), ("discrete".toList, .discrete), ("NIP_next".toList, .next), ("node_size".toList, .nodeSize),
    ("potential".toList, .potential), ("continuous".toList, .continuous)]

/-- The reserved word the token is, `src/huginnet.y:873-962`.  (`strncmp` with the length of the token compares whole words.) -/
def keywordOf (w : List Char) : Option Keyword := keywordTable.lookup w

/-- The kind of a token and its semantic value, `src/huginnet.y:833-1010`.  `isalpha` and `isdigit` are those of the C locale. -/
def classify (w : List Char) : Lexeme :=
  match w with
  | [c] => if c.isAlpha then .name [c] else if c.isDigit then .number [c] else .mark c
  | _ =>
    match keywordOf w with
    | some k => .key k
    | none =>
      if w.head? = some '"' ∧ w.getLast? = some '"' then .text w.tail.dropLast
      else if strtodFinds w then .number w
      else .name w

/-- `yylex`, `src/huginnet.y:833-1010`: `none` is the code 0 for the end of the file. -/
def LexState.yylex (st : LexState) : Res (Option Lexeme × LexState) := do
  let (token, st) ← st.nextToken
  match token with
  | none => ok (none, st)
  | some [] => ok (none, st)
  | some w => ok (some (classify w), st)

/-- Calls of `yylex` until the end of the file is reported: the lexemes and the static variables then.  More calls than `fuel` are not
considered. -/
def LexState.lexemes : (fuel : Nat) → LexState → Res (List Lexeme × LexState)
  | 0, _ => ub
  | fuel + 1, st => do
    let (t, st) ← st.yylex
    match t with
    | none => ok ([], st)
    | some t => do
      let (ts, st) ← st.lexemes fuel
      ok (t :: ts, st)

/-- The static variables when a file is opened (`open_net_file`, `src/huginnet.y:1335-1350`): only the file changes. -/
def LexState.open_ (st : LexState) (file : List Char) : LexState := { st with file := fileLines file }

/-- All lexemes of a file read by calls of `yylex`; there are not more than characters. -/
def lexFile (st : LexState) (file : List Char) : Res (List Lexeme × LexState) := (st.open_ file).lexemes (st.left + file.length + 1)

end Nip
