import Verif.Basic

/-!
# Model of `src/nipstring.c`

A string is the list of its characters without the terminating null character.  An array of separators has `n_separators` elements;
`none` is the null pointer.  Memory is available.
-/

namespace Nip

open Res

/-- `isspace` in the C locale. -/
def isSpace (c : Char) : Bool := c == ' ' || (9 ≤ c.toNat && c.toNat ≤ 13)

/-- The arguments `q_strings`, `separators` (with `n_separators`), `sep_tokens` and `wspace_sep`. -/
structure TokOpt where
  quoted : Bool
  separators : Option (List Char)
  sepTokens : Bool
  wspace : Bool
deriving Repr, DecidableEq

namespace TokOpt

/-- The loop `for(i = 0; i < n_separators; i++) if(*s == separators[i])`, `src/nipstring.c:57-62` and `src/nipstring.c:133-138`. -/
def isSep (o : TokOpt) (c : Char) : Bool :=
  match o.separators with
  | none => false
  | some l => l.any (fun d => c == d)

/-- The condition `(wspace_sep && !isspace((int)*s)) || (!wspace_sep && *s != '\n')`, `src/nipstring.c:84-85` and
`src/nipstring.c:174-175`. -/
def starts (o : TokOpt) (c : Char) : Bool := (o.wspace && !isSpace c) || (!o.wspace && c != '\n')

end TokOpt

/-- Is there a matching quote after place `i`?  The loops of `src/nipstring.c:73-80` and `src/nipstring.c:155-170`. -/
def quoteAhead (s : List Char) (i : Nat) : Bool := (s.drop (i + 1)).any (fun c => c == '"')

/-- The variables of the loop of `nip_count_tokens`; `state` is 0 (waiting for a token), 1 (in a token) or 2 (in a quoted string). -/
structure CountState where
  tokens : Nat
  state : Nat
  found : Bool
deriving Repr, DecidableEq

/-- The body of the loop of `nip_count_tokens`, `src/nipstring.c:55-96`, for the character `c` at place `i`.  The number of characters
(`*chars`), which is the length of the string, is left out. -/
def countStep (o : TokOpt) (s : List Char) (i : Nat) (c : Char) (t : CountState) : CountState :=
  let t := { t with found := t.found || o.isSep c }
  if t.state != 2 && t.found then
    { tokens := if o.sepTokens then t.tokens + 1 else t.tokens, state := 0, found := false }
  else if o.quoted && t.state != 2 && c == '"' then
    if quoteAhead s i then { t with state := 2, tokens := t.tokens + 1 } else t
  else if t.state == 0 then
    if o.starts c then { t with tokens := t.tokens + 1, state := 1 } else t
  else if (o.wspace && t.state == 1 && isSpace c) || c == '\n' then { t with state := 0 }
  else if o.quoted && t.state == 2 && c == '"' then { t with state := 0 }
  else t

/-- `nip_count_tokens`, `src/nipstring.c:36-98`. -/
def countTokens (o : TokOpt) (s : List Char) : Res Nat := do
  let t ← loop s.length (fun i t => do
    let c ← rd s i
    ok (countStep o s i c t)) { tokens := 0, state := 0, found := false }
  ok t.tokens

/-- `nip_count_words`, `src/nipstring.c:31-33`. -/
def countWords (s : List Char) : Res Nat :=
  countTokens { quoted := false, separators := none, sepTokens := false, wspace := true } s

/-- The variables of the loop of `nip_tokenise`; `stop` is set by `break`. -/
structure TokState where
  indices : List Nat
  i : Nat
  j : Nat
  state : Nat
  found : Bool
  stop : Bool
deriving Repr, DecidableEq

/-- `indices[j++] = v`. -/
def TokState.push (t : TokState) (v : Nat) : Res TokState := do
  let a ← wr t.indices t.j v
  ok { t with indices := a, j := t.j + 1 }

/-- `state = v`. -/
def TokState.setState (t : TokState) (v : Nat) : TokState := { t with state := v }

/-- `separator_found = b`. -/
def TokState.setFound (t : TokState) (b : Bool) : TokState := { t with found := b }

/-- The body of the loop of `nip_tokenise`, `src/nipstring.c:133-197`, for the character `c` at place `t.i`, up to the test whether there
are enough tokens. -/
def tokenStep (o : TokOpt) (s : List Char) (c : Char) (t : TokState) : Res TokState :=
  let t := t.setFound (t.found || o.isSep c)
  if t.state != 2 && t.found then do
    let t ← (if t.state == 1 then t.push t.i else ok t)
    let t := t.setState 0
    let t ← (if o.sepTokens then do
        let t ← t.push t.i
        t.push (t.i + 1)
      else ok t)
    ok (t.setFound false)
  else if o.quoted && t.state != 2 && c == '"' then
    if quoteAhead s t.i then do
      let t ← (if t.state == 1 then t.push t.i else ok t)
      (t.setState 2).push t.i
    else ok t
  else if t.state == 0 then
    if o.starts c then do
      let t ← t.push t.i
      ok (t.setState 1)
    else ok t
  else if (o.wspace && t.state == 1 && isSpace c) || c == '\n' then do
    let t ← t.push t.i
    ok (t.setState 0)
  else if o.quoted && t.state == 2 && c == '"' then do
    let t ← t.push (t.i + 1)
    ok (t.setState 0)
  else ok t

/-- `nip_tokenise`, `src/nipstring.c:101-216`; `none` is the null pointer. -/
def tokenise (o : TokOpt) (s : Option (List Char)) (n : Int) : Res (Option (List Nat)) :=
  match s with
  | none => ok none
  | some s =>
    if n ≤ 0 then ok none
    else do
      let size := 2 * n.toNat
      let t ← loop s.length (fun _ (t : TokState) =>
        if t.stop then ok t
        else do
          let c ← rd s t.i
          let t ← tokenStep o s c t
          if t.j == size then ok { t with stop := true } else ok { t with i := t.i + 1 })
        { indices := List.replicate size 0, i := 0, j := 0, state := 0, found := false, stop := false }
      -- Mark the end of a word that extends to the end of the string
      if t.j + 1 = size then do
        let a ← wr t.indices t.j t.i
        ok (some a)
      else if t.j + 1 < size then ok none
      else ok (some t.indices)

/-- The copy of token number `i` into an array of its own, `src/nipstring.c:230-246` (also `src/nipparsers.c:346-355`): the characters
between the given indices.  A negative length, or a place after the end of the string, makes the copy leave the string. -/
def copyToken (s : List Char) (indices : List Nat) (i : Nat) : Res (List Char) := do
  let b ← rd indices (2 * i)
  let e ← rd indices (2 * i + 1)
  if e < b ∨ s.length < b then ub else ok ((s.drop b).take (e - b))

/-- `nip_split`, `src/nipstring.c:219-249`: the words between the given indices. -/
def splitWords (s : List Char) (indices : List Nat) (n : Nat) : Res (List (List Char)) :=
  loop n (fun i words => do
    let w ← copyToken s indices i
    ok (words ++ [w])) []

end Nip
