import Verif.Build
import Verif.HuginLex
import Verif.NetTable

/-!
# Model of the grammar of network files: `src/huginnet.y`, and of `parse_model` (`src/nip.c`)

The rules of the grammar are functions that take the lexemes in front of them (recursive descent), with the actions in the order of Bison's
parser: the action of a rule that ends with a list runs when the list is complete, also if an error follows.  The tables generated by Bison are
not modelled.  The static variables of the parser are kept in `Statics`; a pointer to freed memory is a value of its own, and using it is `ub`.
Memory is available.
-/

namespace Nip

open Res Spec

/-- A static pointer: the null pointer, a pointer to something, or a pointer to memory that has been freed. -/
inductive Ptr (α : Type) where
  | null
  | live (a : α)
  | freed
deriving Repr, DecidableEq

/-- What becomes of a static pointer when the memory is freed but the pointer is not changed. -/
def Ptr.free {α : Type} : Ptr α → Ptr α
  | live _ => freed
  | p => p

/-- What the words for numbers mean: `strtod`, and `abs((int)strtod(…))` (`none`: the number does not fit into an `int`). -/
structure Numerals (K : Type) where
  value : List Char → K
  int : List Char → Option Nat

/-- The texts and the position of a variable, `src/nipvariable.h`, with its identity. -/
structure NodeRec where
  id : Nat
  symbol : List Char
  label : List Char
  states : List (List Char)
  posX : Nat
  posY : Nat
deriving Repr, DecidableEq

/-- The static variables of `src/huginnet.y:36-81` and the counter of `nip_new_variable` (`src/nipvariable.c:60`).  The lists `strings` and
`doubles` are null pointers if they are empty (they are created with their first element).  `nip_data_size`, `nip_parsed_graph` and the cliques
are local values here. -/
structure Statics (K : Type) where
  posX : Nat
  posY : Nat
  sizeX : Nat
  sizeY : Nat
  doubles : List K
  strings : List (List Char)
  states : Option (List (List Char))
  label : Ptr (List Char)
  persistence : Option (List Char)
  vars : Ptr (List NodeRec)
  parents : Option (List Nat)
  pots : Ptr (List (Parsed K))
  links : Ptr (List (Nat × List Char))
  nextId : Nat

/-- The static variables at the start of the program, `src/huginnet.y:36-81`, `NIP_VAR_MIN_ID` (`src/nipvariable.h:27`). -/
def Statics.initial {K : Type} : Statics K :=
  { posX := 100, posY := 100, sizeX := 80, sizeY := 60, doubles := [], strings := [], states := none, label := .null, persistence := none,
    vars := .null, parents := none, pots := .null, links := .null, nextId := 1 }

/-- The state of the parser: static variables and the lexemes that have not been read. -/
structure PState (K : Type) where
  g : Statics K
  rest : List Lexeme

/-- A part of the parser.  The result `none` is the end of `yyparse` with an error (syntax error or `YYABORT`); the state is then the one left
behind. -/
def Parse (K α : Type) : Type := PState K → Res (Option α × PState K)

variable {K : Type}

namespace Parse

variable {α β : Type}

/-- nothing is read -/
def pure (a : α) : Parse K α := fun s => ok (some a, s)

/-- one part after another -/
def bind (m : Parse K α) (f : α → Parse K β) : Parse K β := fun s => do
  let (a, s) ← m s
  match a with
  | none => ok (none, s)
  | some a => f a s

instance : Monad (Parse K) where
  pure := Parse.pure
  bind := Parse.bind

/-- `YYABORT` -/
def abort : Parse K α := fun s => ok (none, s)

/-- undefined behaviour -/
def crash : Parse K α := fun _ => ub

/-- a computation that does not use the state of the parser -/
def run (x : Res α) : Parse K α := fun s =>
  match x with
  | ub => ub
  | ok a => ok (some a, s)

/-- the static variables -/
def statics : Parse K (Statics K) := fun s => ok (some s.g, s)

/-- an assignment to the static variables -/
def assign (f : Statics K → Statics K) : Parse K Unit := fun s => ok (some (), { s with g := f s.g })

/-- the lookahead -/
def peek : Parse K (Option Lexeme) := fun s => ok (some s.rest.head?, s)

/-- A terminal symbol; another one (which is read) or the end of the file is a syntax error. -/
def expect (t : Lexeme) : Parse K Unit := fun s =>
  match s.rest with
  | [] => ok (none, s)
  | a :: r => if a = t then ok (some (), { s with rest := r }) else ok (none, { s with rest := r })

/-- the terminal symbol `UNQUOTED_STRING` -/
def takeName : Parse K (List Char) := fun s =>
  match s.rest with
  | [] => ok (none, s)
  | .name w :: r => ok (some w, { s with rest := r })
  | _ :: r => ok (none, { s with rest := r })

/-- the terminal symbol `QUOTED_STRING` -/
def takeText : Parse K (List Char) := fun s =>
  match s.rest with
  | [] => ok (none, s)
  | .text w :: r => ok (some w, { s with rest := r })
  | _ :: r => ok (none, { s with rest := r })

/-- the terminal symbol `NUMBER`, as it is written -/
def takeNumber : Parse K (List Char) := fun s =>
  match s.rest with
  | [] => ok (none, s)
  | .number w :: r => ok (some w, { s with rest := r })
  | _ :: r => ok (none, { s with rest := r })

end Parse

open Parse

/-- The numbers in front of the parser, grouped by parentheses (`depth` of them are open): could they be read, the numbers, what is left.  Rules
`numbers`, `src/huginnet.y:800-803`, and `ignored_numbers`, `src/huginnet.y:821-824`. -/
def scanNumbers : (depth : Nat) → List Lexeme → Bool × List (List Char) × List Lexeme
  | d, .number w :: r => let x := scanNumbers d r; (x.1, w :: x.2.1, x.2.2)
  | d, .mark '(' :: r => scanNumbers (d + 1) r
  | d + 1, .mark ')' :: r => scanNumbers d r
  | 0, r => (true, [], r)
  | _ + 1, r => (false, [], r.tail)

/-- Rule `ignored_numbers`, `src/huginnet.y:821-824`. -/
def ignoredNumbers : Parse K Unit := fun s =>
  let x := scanNumbers 0 s.rest
  ok (if x.1 then some () else none, { s with rest := x.2.2 })

/-- Rules `numbers` and `num`, `src/huginnet.y:800-818`: the numbers are added to the list. -/
def numbers (num : Numerals K) : Parse K Unit := fun s =>
  let x := scanNumbers 0 s.rest
  ok (if x.1 then some () else none, { g := { s.g with doubles := s.g.doubles ++ x.2.1.map num.value }, rest := x.2.2 })

/-- Rule `value`, `src/huginnet.y:827-829`. -/
def valueRule : Parse K Unit := do
  match ← peek with
  | some (.text _) => do let _ ← takeText
  | _ => ignoredNumbers

/-- Rule `unknownDeclaration`, `src/huginnet.y:581-582`. -/
def unknownDeclaration : Parse K Unit := do
  let _ ← takeName
  expect (.mark '=')
  valueRule
  expect (.mark ';')

/-- The quoted texts in front of the parser, and what is left. -/
def scanTexts : List Lexeme → List (List Char) × List Lexeme
  | .text w :: r => let x := scanTexts r; (w :: x.1, x.2)
  | r => ([], r)

/-- Rules `strings` and `string`, `src/huginnet.y:778-797`: the texts are added to the list. -/
def strings : Parse K Unit := fun s =>
  let x := scanTexts s.rest
  ok (some (), { g := { s.g with strings := s.g.strings ++ x.1 }, rest := x.2 })

/-- Rule `statesDeclaration`, `src/huginnet.y:546-563`.  Without any text the list is a null pointer, whose length is read. -/
def statesDeclaration : Parse K Unit := do
  expect (.key .states)
  expect (.mark '=')
  expect (.mark '(')
  strings
  expect (.mark ')')
  expect (.mark ';')
  let g ← statics
  if g.strings = [] then crash
  else assign (fun g => { g with states := some g.strings, strings := [] })

/-- Rules `labelDeclaration` and `persistenceDeclaration`, `src/huginnet.y:538-543`. -/
def textDeclaration (k : Keyword) : Parse K (List Char) := do
  expect (.key k)
  expect (.mark '=')
  let w ← takeText
  expect (.mark ';')
  return w

/-- `k = (x y);`, the rules `positionDeclaration` and `nodeSizeDeclaration`, `src/huginnet.y:567-577`: the two numbers as `int`. -/
def pairDeclaration (num : Numerals K) (k : Keyword) : Parse K (Nat × Nat) := do
  expect (.key k)
  expect (.mark '=')
  expect (.mark '(')
  let x ← takeNumber
  let y ← takeNumber
  expect (.mark ')')
  expect (.mark ';')
  match num.int x, num.int y with
  | some x, some y => return (x, y)
  | _, _ => crash

/-- Rules `node_params` and `ignored_params`, `src/huginnet.y:504-522`; the label and the successor are assigned after the rest of the list.  `fuel`
bounds the number of fields by the number of lexemes. -/
def nodeParams (num : Numerals K) : (fuel : Nat) → Parse K Unit
  | 0 => abort
  | fuel + 1 => do
    match ← peek with
    | some (.name _) => do
      unknownDeclaration
      nodeParams num fuel
    | some (.key .states) => do
      statesDeclaration
      nodeParams num fuel
    | some (.key .label) => do
      let w ← textDeclaration .label
      nodeParams num fuel
      assign (fun g => { g with label := .live w })
    | some (.key .next) => do
      let w ← textDeclaration .next
      nodeParams num fuel
      assign (fun g => { g with persistence := some w })
    | some (.key .position) => do
      let p ← pairDeclaration num .position
      assign (fun g => { g with posX := p.1, posY := p.2 })
      nodeParams num fuel
    | _ => return ()

/-- `nip_set_variable_text` with `NIP_VAR_TEXT_LENGTH`, `src/nipvariable.c:33-53`, `src/nipvariable.h:26`. -/
def cutText (w : List Char) : List Char := w.take 40

/-- The action of the rules for `node` and `discrete node`, `src/huginnet.y:312-379`, `src/huginnet.y:381-457`: the variable is added to the list.
The memory of the label is freed, but not the static pointer to it changed. -/
def finishNode (name : List Char) : Parse K Unit := do
  let g ← statics
  let label : List Char ← (match g.label with
    | .null => return " ".toList
    | .live l => return l
    | .freed => crash)
  match g.states with
  | none => do
    assign (fun g => { g with label := .null, persistence := none })
    abort
  | some states => do
    let v : NodeRec := { id := g.nextId, symbol := cutText name, label := cutText label, states := states.map cutText, posX := g.posX, posY := g.posY }
    let vars ← (match g.vars with
      | .null => return [v]
      | .live l => return l ++ [v]
      | .freed => crash)
    let links ← (match g.persistence, g.links with
      | none, p => return p
      | some w, .null => return .live [(g.nextId, w)]
      | some w, .live l => return .live (l ++ [(g.nextId, w)])
      | some _, .freed => crash)
    assign (fun g => { g with nextId := g.nextId + 1, posX := 100, posY := 100, vars := .live vars, links := links, label := g.label.free, states := none, persistence := none })

/-- The action of the rules for continuous variables, utilities and decisions, `src/huginnet.y:459-501`. -/
def unsupported : Parse K Unit := do
  let g ← statics
  match g.label with
  | .freed => crash
  | _ => do
    assign (fun g => { g with label := .null, persistence := none, states := none })
    abort

/-- Rule `nodeDeclaration` for each of the words it can begin with, `src/huginnet.y:312-501`. -/
def nodeDeclaration (num : Numerals K) (fuel : Nat) (k : Keyword) : Parse K Unit := do
  expect (.key k)
  if k = .discrete ∨ k = .continuous then expect (.key .node)
  let n ← takeName
  expect (.mark '{')
  nodeParams num fuel
  expect (.mark '}')
  if k = .node ∨ k = .discrete then finishNode n else unsupported

/-- Rule `nodes`, `src/huginnet.y:300-302`.  At the end the length of the list of variables is read. -/
def nodes (num : Numerals K) : (fuel : Nat) → Parse K Unit
  | 0 => abort
  | fuel + 1 => do
    let t ← peek
    match t with
    | some (.key k) =>
      if k = .node ∨ k = .discrete ∨ k = .continuous ∨ k = .utility ∨ k = .decision then do
        nodeDeclaration num fuel k
        nodes num fuel
      else stop
    | _ => stop
where
  /-- the empty rule -/
  stop : Parse K Unit := do
    let g ← statics
    match g.vars with
    | .live _ => return ()
    | _ => crash

/-- `nip_search_variable_list`, `src/nipvariable.c:805-821`. -/
def searchVar (l : List NodeRec) (name : List Char) : Option Nat := (l.find? (fun v => v.symbol == name)).map (fun v => v.id)

/-- The number of states of a variable in the list. -/
def cardOf (l : List NodeRec) (v : Nat) : Nat := ((l.find? (fun u => u.id == v)).map (fun u => u.states.length)).getD 0

/-- The list of variables. -/
def theVars : Parse K (List NodeRec) := do
  let g ← statics
  match g.vars with
  | .live l => return l
  | _ => crash

/-- The names in front of the parser, with rule `symbol`, `src/huginnet.y:755-774`: each parent is put in front of the list; the list is created even
if the name is not known. -/
def symbolsFrom (vars : List NodeRec) : List Lexeme → Statics K → Res (Option Unit × PState K)
  | .name w :: r, g =>
    match searchVar vars w with
    | none => ok (none, { g := { g with parents := some (g.parents.getD []) }, rest := r })
    | some v => symbolsFrom vars r { g with parents := some (v :: g.parents.getD []) }
  | r, g => ok (some (), { g := g, rest := r })

/-- Rule `symbols`, `src/huginnet.y:755-757`. -/
def symbols : Parse K Unit := do
  let vars ← theVars
  fun s => symbolsFrom vars s.rest s.g

/-- Rule `dataList`, `src/huginnet.y:830-840`.  Without any number the list is a null pointer, whose length is read. -/
def dataList (num : Numerals K) : Parse K (List K) := do
  expect (.key .data)
  expect (.mark '=')
  expect (.mark '(')
  numbers num
  expect (.mark ')')
  expect (.mark ';')
  let g ← statics
  match g.doubles with
  | [] => crash
  | _ => do
    assign (fun g => { g with doubles := [] })
    return g.doubles

variable [Field K] [LinearOrder K]

/-- `nip_append_potential` with the creation of the list, `src/huginnet.y:642-647`, `src/nipjointree.c:1382-1404`. -/
def addPotential (q : Parsed K) : Parse K Unit := do
  let g ← statics
  match g.pots with
  | .null => assign (fun g => { g with pots := .live [q] })
  | .live l => assign (fun g => { g with pots := .live (l ++ [q]) })
  | .freed => crash

/-- The actions of rule `potentialDeclaration`, `src/huginnet.y:585-743`.  `child` is `none` if there is no such variable; its number of states is then
read from a null pointer. -/
def finishPotential (child : Option Nat) (bar : Bool) (data : Option (List K)) : Parse K Unit := do
  let vars ← theVars
  let g ← statics
  if bar = true ∧ g.parents.getD [] = [] then abort
  else
    match child with
    | none => crash
    | some child => do
      let q ← run (potentialDeclaration (cardOf vars) child (if bar then some (g.parents.getD []).reverse else none) data)
      match q with
      | none => abort
      | some q => do
        addPotential q
        if bar then assign (fun g => { g with parents := none })

/-- The end of rule `potentialDeclaration`, `src/huginnet.y:585-743`, from the closing parenthesis of the family on. -/
def potentialBody (num : Numerals K) (child : Option Nat) (bar : Bool) : Parse K Unit := do
  expect (.mark ')')
  expect (.mark '{')
  match ← peek with
  | some (.key .data) => do
    let d ← dataList num
    expect (.mark '}')
    finishPotential child bar (some d)
  | _ => do
    expect (.mark '}')
    finishPotential child bar none

/-- Rules `potentialDeclaration` and `child`, `src/huginnet.y:585-752`. -/
def potentialRule (num : Numerals K) : Parse K Unit := do
  expect (.key .potential)
  expect (.mark '(')
  let n ← takeName
  let vars ← theVars
  let t ← peek
  if t = some (.mark '|') then do
    expect (.mark '|')
    symbols
    potentialBody num (searchVar vars n) true
  else potentialBody num (searchVar vars n) false

/-- Rule `potentials`, `src/huginnet.y:305-307`. -/
def potentials (num : Numerals K) : (fuel : Nat) → Parse K Unit
  | 0 => abort
  | fuel + 1 => do
    match ← peek with
    | some (.key .potential) => do
      potentialRule num
      potentials num fuel
    | _ => return ()

/-- Rule `parameters`, `src/huginnet.y:530-533`. -/
def parameters (num : Numerals K) : (fuel : Nat) → Parse K Unit
  | 0 => abort
  | fuel + 1 => do
    match ← peek with
    | some (.key .nodeSize) => do
      let p ← pairDeclaration num .nodeSize
      assign (fun g => { g with sizeX := p.1, sizeY := p.2 })
      parameters num fuel
    | some (.name _) => do
      unknownDeclaration
      parameters num fuel
    | _ => return ()

/-- What `parse_model` returns: the model, with the file it was built from (which has the links between variables) and the texts of the variables. -/
structure ReadModel (K : Type) where
  model : Model K
  file : NetFile K
  nodes : List NodeRec
  sizeX : Nat
  sizeY : Nat

/-- The first loop of `interface_to_vars`, `src/huginnet.y:1181-1210`: the successors of the variables; `none` if the numbers of states differ.  An
unknown name gives a null pointer, which is read. -/
def linkVars (vars : List NodeRec) : List (Nat × List Char) → (Nat → Option Nat) → Res (Option (Nat → Option Nat))
  | [], next => ok (some next)
  | (v, name) :: r, next =>
    match searchVar vars name with
    | none => ub
    | some u => if cardOf vars v = cardOf vars u then linkVars vars r (Function.update next v (some u)) else ok none

/-- The list of links, from the static pointer: `interface_to_vars` does nothing if it is a null pointer, `src/huginnet.y:1166-1167`. -/
def allLinks (vars : List NodeRec) : Ptr (List (Nat × List Char)) → Res (Option (Nat → Option Nat))
  | .null => ok (some (fun _ => none))
  | .live l => linkVars vars l (fun _ => none)
  | .freed => ub

/-- The action of rule `input`, `src/huginnet.y:202-297`.  The memory of the lists of links and potentials is freed, but the static pointers are not
changed. -/
def finishInput (ptr : Nat) : Parse K (ReadModel K) := do
  let vars ← theVars
  let g ← statics
  match g.pots with
  | .live pots => do
    let file : NetFile K := { vars := vars.map (fun v => v.id), card := cardOf vars, next := fun _ => none, pots := pots }
    fun s =>
      match NetFile.toGraph file, allLinks vars g.links with
      | ub, _ => ub
      | ok none, _ => ok (none, s)
      | ok (some _), ub => ub
      | ok (some _), ok none => ok (none, s)
      | ok (some _), ok (some next) =>
        let file := { file with next := next }
        match NetFile.build ptr file with
        | ub => ub
        | ok none => ok (none, { s with g := { s.g with links := s.g.links.free } })
        | ok (some m) => ok (some { model := m, file := file, nodes := vars, sizeX := g.sizeX, sizeY := g.sizeY },
            { s with g := { s.g with links := s.g.links.free, pots := s.g.pots.free } })
  | _ => crash

/-- The end of the file; anything else (which is read) is a syntax error. -/
def endOfFile : Parse K Unit := fun s =>
  match s.rest with
  | [] => ok (some (), s)
  | _ :: r => ok (none, { s with rest := r })

/-- The lookahead at the end of rule `potentials` is read before the action of rule `input`; the result says if it was the end of the file. -/
def readLookahead : Parse K Bool := fun s => ok (some s.rest.isEmpty, { s with rest := s.rest.tail })

/-- Rule `input`, `src/huginnet.y:202-297`: the action runs before the parser finds out that the file does not end here. -/
def input (num : Numerals K) (ptr : Nat) (fuel : Nat) : Parse K (ReadModel K) := do
  match ← peek with
  | some (.key .klass) => do
    expect (.key .klass)
    let _ ← takeName
    expect (.mark '{')
    parameters num fuel
    nodes num fuel
    potentials num fuel
    expect (.mark '}')
    let m ← finishInput ptr
    endOfFile
    return m
  | t => do
    if t = some (.key .net) then do
      expect (.key .net)
      expect (.mark '{')
      parameters num fuel
      expect (.mark '}')
    nodes num fuel
    potentials num fuel
    let last ← readLookahead
    let m ← finishInput ptr
    if last then return m else abort

/-- Everything static: of the lexical analysis and of the parser. -/
structure Session (K : Type) where
  lex : LexState
  g : Statics K

/-- The start of the program. -/
def Session.initial {K : Type} : Session K := { lex := LexState.initial, g := Statics.initial }

/-- The static variables of the lexical analysis after a number of calls of `yylex`. -/
def lexAfter : Nat → LexState → LexState
  | 0, st => st
  | n + 1, st =>
    match st.yylex with
    | ok (_, st) => lexAfter n st
    | ub => st

/-- `parse_model`, `src/nip.c:118-290`, with `yyparse`.  All lexemes of the file are found first, which makes no difference: `yylex` does not depend on
the parser.  On success the end of the file has been read.  (After an error, a last call that reports the end of the file only changes variables of the
lexical analysis that are not used again.)  The list of variables is freed on success, but the static pointer is not changed. -/
def parseModel (num : Numerals K) (ptr : Nat) (s : Session K) (file : List Char) : Res (Option (ReadModel K) × Session K) := do
  let (ts, last) ← lexFile s.lex file
  let (r, p) ← input num ptr (ts.length + 1) { g := s.g, rest := ts }
  match r with
  | none => ok (none, { lex := lexAfter (ts.length - p.rest.length) (s.lex.open_ file), g := p.g })
  | some m => ok (some m, { lex := last, g := { p.g with vars := p.g.vars.free } })

end Nip
