import Verif.PotentialMemory
import Verif.DataFile

/-!
# The memory of data files

The memory of `Verif/PotentialMemory.lean` with other blocks.  The text of the file is given as its lines (see `fileLines` in `Verif/DataFile.lean`); fields are found with the
functions of `Verif/Tokens.lean`.  Simplified: the array of a text has exactly the room for its characters; integers are unbounded; `FILE*`, the separator, and the numbers of lines read
are not kept in the structure.
-/

namespace Nip

open Res

/-- `nip_data_file_struct`, `src/nipparsers.h`, without the stream, the separator and the numbers of lines read -/
structure FileCell where
  write : Bool
  header : Bool
  name : MemPtr
  ndatarows : Nat
  datarows : MemPtr
  nodes : Nat
  symbols : MemPtr
  counts : MemPtr
  states : MemPtr
deriving Repr, DecidableEq

/-- `nip_string_list_struct`, `src/niplists.h` -/
structure NameHead where
  length : Nat
  first : MemPtr
  last : MemPtr
deriving Repr, DecidableEq

/-- `nip_string_link_struct`, `src/niplists.h` -/
structure NameLink where
  data : MemPtr
  fwd : MemPtr
  bwd : MemPtr
deriving Repr, DecidableEq

/-- What is in a block. -/
inductive FileBlock where
  | file (c : FileCell)
  | text (s : List Char)
  | ints (l : List Nat)
  | pointers (l : List MemPtr)
  | list (h : NameHead)
  | link (k : NameLink)
deriving Repr, DecidableEq

abbrev FileMemory := Store FileBlock

namespace Store

/-- read a data file -/
def fileCellAt (m : FileMemory) (p : MemPtr) : Res FileCell := do
  match ← m.get p with
  | .file c => ok c
  | _ => ub

/-- read a text -/
def nameTextAt (m : FileMemory) (p : MemPtr) : Res (List Char) := do
  match ← m.get p with
  | .text s => ok s
  | _ => ub

/-- read an array of integers -/
def fileIntsAt (m : FileMemory) (p : MemPtr) : Res (List Nat) := do
  match ← m.get p with
  | .ints l => ok l
  | _ => ub

/-- read an array of pointers -/
def filePtrsAt (m : FileMemory) (p : MemPtr) : Res (List MemPtr) := do
  match ← m.get p with
  | .pointers l => ok l
  | _ => ub

/-- read a list -/
def nameListAt (m : FileMemory) (p : MemPtr) : Res NameHead := do
  match ← m.get p with
  | .list h => ok h
  | _ => ub

/-- read an entry of a list -/
def nameLinkAt (m : FileMemory) (p : MemPtr) : Res NameLink := do
  match ← m.get p with
  | .link k => ok k
  | _ => ub

/-- `a[i]` for an array of pointers -/
def filePtrAt (m : FileMemory) (a : MemPtr) (i : Nat) : Res MemPtr := do
  let l ← m.filePtrsAt a
  rd l i

/-- `a[i] = p` for an array of pointers -/
def setFilePtr (m : FileMemory) (a : MemPtr) (i : Nat) (p : MemPtr) : Res FileMemory := do
  let l ← m.filePtrsAt a
  let l ← wr l i p
  m.put a (.pointers l)

/-- `a[i] = x` for an array of integers -/
def setFileInt (m : FileMemory) (a : MemPtr) (i x : Nat) : Res FileMemory := do
  let l ← m.fileIntsAt a
  let l ← wr l i x
  m.put a (.ints l)

/-- `for(i = 0; i < n; i++) free(a[i])` -/
def freeFilePtrs (m : FileMemory) (a : MemPtr) (n : Nat) : Res FileMemory :=
  loop n (fun i m => do
    let p ← m.filePtrAt a i
    m.free p) m

/-- `nip_new_string_list`, `src/niplists.c:90-101` -/
def newNames (m : FileMemory) : MemPtr × FileMemory := m.alloc (.list { length := 0, first := .null, last := .null })

/-- `nip_prepend_string`, `src/niplists.c:299-319`.  Returns whether there was no error. -/
def prependName (m : FileMemory) (l s : MemPtr) : Res (Bool × FileMemory) := do
  let lnull ← l.isNull
  let snull ← s.isNull
  if lnull || snull then ok (false, m)
  else do
    let (n, m) := m.alloc (.link { data := .junk, fwd := .junk, bwd := .junk })
    if n == .null then ok (false, m)
    else do
      let h ← m.nameListAt l
      let m ← m.put n (.link { data := s, fwd := h.first, bwd := .null })
      let none ← h.last.isNull
      let m ← if none then ok m
        else do
          let k ← m.nameLinkAt h.first
          m.put h.first (.link { k with bwd := n })
      let m ← m.put l (.list { length := h.length + 1, first := n, last := if none then n else h.last })
      ok (true, m)

/-- The loop of `nip_string_list_contains`, `src/niplists.c:629-634`.  At most `fuel` rounds; more are undefined. -/
def findName (m : FileMemory) (s : List Char) : (fuel : Nat) → (p : MemPtr) → Res Bool
  | 0, _ => ub
  | fuel + 1, p => do
    let null ← p.isNull
    if null then ok false
    else do
      let k ← m.nameLinkAt p
      let t ← m.nameTextAt k.data
      if s = t then ok true else m.findName s fuel k.fwd

/-- `nip_string_list_contains`, `src/niplists.c:622-636`, for a text that is not NULL.  The number of rounds of the loop is bounded by the length of the list. -/
def hasName (m : FileMemory) (l : MemPtr) (s : List Char) : Res Bool := do
  let null ← l.isNull
  if null then ok false
  else do
    let h ← m.nameListAt l
    m.findName s (h.length + 1) h.first

/-- `nip_string_list_to_array`, `src/niplists.c:403-425` -/
def namesToArray (m : FileMemory) (l : MemPtr) : Res (MemPtr × FileMemory) := do
  let null ← l.isNull
  if null then ok (.null, m)
  else do
    let h ← m.nameListAt l
    if h.length = 0 then ok (.null, m)
    else do
      let (a, m) := m.alloc (.pointers (List.replicate h.length .null))
      if a == .null then ok (.null, m)
      else do
        let r ← loop h.length (fun i (st : MemPtr × FileMemory) => do
          let k ← st.2.nameLinkAt st.1
          let m ← st.2.setFilePtr a i k.data
          ok (k.fwd, m)) (h.first, m)
        ok (a, r.2)

/-- The loop of `nip_empty_string_list`, `src/niplists.c:500-503`: backwards from `ln`, each time freeing what comes after it.  At most `fuel` rounds; more are undefined. -/
def emptyBack (m : FileMemory) : (fuel : Nat) → (ln : MemPtr) → Res FileMemory
  | 0, _ => ub
  | fuel + 1, ln => do
    let null ← ln.isNull
    if null then ok m
    else do
      let k ← m.nameLinkAt ln
      let m ← m.free k.fwd
      let k ← m.nameLinkAt ln
      m.emptyBack fuel k.bwd

/-- `nip_empty_string_list`, `src/niplists.c:491-508`: the texts are kept. -/
def emptyNames (m : FileMemory) (l : MemPtr) : Res FileMemory := do
  let null ← l.isNull
  if null then ok m
  else do
    let h ← m.nameListAt l
    let m ← m.put l (.list { h with last := .null })
    let m ← m.emptyBack (h.length + 1) h.last
    let m ← m.free h.first
    m.put l (.list { length := 0, first := .null, last := .null })

/-- free an entry with its text, `src/niplists.c:549-550` and `:555-556` -/
def freeName (m : FileMemory) (p : MemPtr) : Res FileMemory := do
  let k ← m.nameLinkAt p
  let m ← m.free k.data
  m.free p

/-- The loop of `nip_free_string_list`, `src/niplists.c:547-553`.  At most `fuel` rounds; more are undefined. -/
def freeNamesBack (m : FileMemory) : (fuel : Nat) → (ln : MemPtr) → Res FileMemory
  | 0, _ => ub
  | fuel + 1, ln => do
    let null ← ln.isNull
    if null then ok m
    else do
      let k ← m.nameLinkAt ln
      let null ← k.fwd.isNull
      let m ← if null then ok m else m.freeName k.fwd
      let k ← m.nameLinkAt ln
      m.freeNamesBack fuel k.bwd

/-- `nip_free_string_list`, `src/niplists.c:538-564` -/
def freeNames (m : FileMemory) (l : MemPtr) : Res FileMemory := do
  let null ← l.isNull
  if null then ok m
  else do
    let h ← m.nameListAt l
    let m ← m.put l (.list { h with last := .null })
    let m ← m.freeNamesBack (h.length + 1) h.last
    let null ← h.first.isNull
    let m ← if null then ok m else m.freeName h.first
    let m ← m.put l (.list { length := 0, first := .null, last := .null })
    m.free l

/-- free all lists of state names and their array, `src/nipparsers.c:189-191`, `:199-201` and `:215-217` -/
def freeLists (m : FileMemory) (names : MemPtr) (n : Nat) : Res FileMemory := do
  let m ← loop n (fun i m => do
    let l ← m.filePtrAt names i
    m.freeNames l) m
  m.free names

/-- `nip_open_data_file`, `src/nipparsers.c:44-95`; `opens` says whether `fopen` succeeds. -/
def openData (m : FileMemory) (filename : List Char) (write header opens : Bool) : Res (MemPtr × FileMemory) := do
  let cell : FileCell := { write := write, header := header, name := .null, ndatarows := 0, datarows := .null, nodes := 0, symbols := .null, counts := .null, states := .null }
  let (f, m) := m.alloc (.file cell)
  if f == .null then ok (.null, m)
  else if !opens then do
    let m ← m.free f
    ok (.null, m)
  else do
    let (s, m) := m.alloc (.text filename)
    if s == .null then do
      let m ← m.free f
      ok (.null, m)
    else do
      let m ← m.put f (.file { cell with name := s })
      ok (f, m)

/-- The loops of `nip_set_node_symbols`, `src/nipparsers.c:306-317` and `:320-334`, from `i` on.  Without a header the array is too short for the name that is written into it (see
`setNodeSymbols` in `Verif/DataFile.lean`).  Returns whether there was memory. -/
def newSymbols (header : Bool) (line : List Char) (b a : MemPtr) : (k i : Nat) → FileMemory → Res (Bool × FileMemory)
  | 0, _, m => ok (true, m)
  | k + 1, i, m => do
    if header then do
      let bounds ← m.fileIntsAt b
      let w ← copyToken line bounds i
      let (t, m) := m.alloc (.text w)
      let m ← m.setFilePtr a i t
      if t == .null then ok (false, m)
      else newSymbols header line b a k (i + 1) m
    else do
      let (t, m) := m.alloc (.text [])
      let m ← m.setFilePtr a i t
      if t == .null then ok (false, m)
      else ub

/-- `nip_set_node_symbols`, `src/nipparsers.c:294-337`.  Returns whether there was memory. -/
def setSymbols (m : FileMemory) (f : MemPtr) (line : List Char) (b : MemPtr) (n : Nat) : Res (Bool × FileMemory) := do
  let c ← m.fileCellAt f
  let (a, m) := m.alloc (.pointers (List.replicate n .null))
  let m ← m.put f (.file { c with nodes := n, symbols := a })
  if a == .null then ok (false, m)
  else newSymbols c.header line b a n 0 m

/-- The loop of `nip_accumulate_state_names`, `src/nipparsers.c:344-372`, from `i` on.  Returns false for -1; when an entry of a list could not be added the loop ends without an
error. -/
def addNames (names : MemPtr) (line : List Char) (b : MemPtr) : (k i : Nat) → FileMemory → Res (Bool × FileMemory)
  | 0, _, m => ok (true, m)
  | k + 1, i, m => do
    let bounds ← m.fileIntsAt b
    let w ← copyToken line bounds i
    let (t, m) := m.alloc (.text w)
    if t == .null then ok (false, m)
    else if nullObservation w then do
      let m ← m.free t
      addNames names line b k (i + 1) m
    else do
      let l ← m.filePtrAt names i
      let seen ← m.hasName l w
      if seen then do
        let m ← m.free t
        addNames names line b k (i + 1) m
      else do
        let (good, m) ← m.prependName l t
        if good then addNames names line b k (i + 1) m
        else do
          let m ← m.free t
          ok (true, m)

/-- The array of lists of state names, `src/nipparsers.c:183-184`; a list that could not be created is NULL. -/
def newLists (m : FileMemory) (names : MemPtr) (n : Nat) : Res FileMemory :=
  loop n (fun i (m : FileMemory) => do
    let (l, m) := m.newNames
    m.setFilePtr names i l) m

/-- The local variables of `nip_analyse_data_file` that matter between lines; `names` is `statenames`. -/
structure FileRun where
  state : Nat
  ts : Nat
  empty : Nat
  names : MemPtr
deriving Repr, DecidableEq

/-- The first line that is not empty, `src/nipparsers.c:167-205`.  Returns `statenames`, or `none` for the return with -1. -/
def headerLine (m : FileMemory) (f : MemPtr) (line : List Char) (b : MemPtr) (n : Nat) : Res (Option MemPtr × FileMemory) := do
  let (good, m) ← m.setSymbols f line b n
  if !good then do
    let m ← m.free b
    ok (none, m)
  else do
    let c ← m.fileCellAt f
    let (s, m) := m.alloc (.pointers (List.replicate c.nodes .null))
    if s == .null then do
      let m ← m.free b
      ok (none, m)
    else do
      let m ← m.newLists s c.nodes
      let (k, m) := m.alloc (.ints (List.replicate c.nodes 0))
      let m ← m.put f (.file { c with counts := k })
      if k == .null then do
        let m ← m.freeLists s c.nodes
        let m ← m.free b
        ok (none, m)
      else do
        let (x, m) := m.alloc (.pointers (List.replicate c.nodes .null))
        let m ← m.put f (.file { c with counts := k, states := x })
        if x == .null then do
          let m ← m.freeLists s c.nodes
          let m ← m.free b
          ok (none, m)
        else do
          let m ← m.free b
          ok (some s, m)

/-- A line of data, `src/nipparsers.c:206-222`.  Returns false for the return with -1. -/
def dataLine (m : FileMemory) (f : MemPtr) (ts : Nat) (names : MemPtr) (line : List Char) (b : MemPtr) (n : Nat) : Res (Bool × FileMemory) := do
  let c ← m.fileCellAt f
  let rows ← m.fileIntsAt c.datarows
  let r ← rd rows ts
  let m ← m.setFileInt c.datarows ts (r + 1)
  let i := if c.nodes < n then c.nodes else n
  let (good, m) ← if i > 0 then addNames names line b i 0 m else ok (true, m)
  if good then do
    let m ← m.free b
    ok (true, m)
  else do
    let m ← m.freeLists names c.nodes
    let m ← m.free b
    ok (false, m)

/-- The body of the loop of `nip_analyse_data_file`, `src/nipparsers.c:134-222`; `none` is the return with -1.  `nip_tokenise` returns an array of its own or NULL
(`src/nipstring.c:121-127`). -/
def lineInMemory (m : FileMemory) (f : MemPtr) (sep : Char) (line : List Char) (t : FileRun) : Res (Option FileRun × FileMemory) := do
  let n ← countTokens (lineOpt sep) line
  if n = 0 then ok (some { t with empty := t.empty + 1 }, m)
  else do
    let bounds ← tokenise (lineOpt sep) (some line) n
    match bounds with
    | none => ok (none, m)
    | some bounds =>
      let (b, m) := m.alloc (.ints bounds)
      if b == .null then ok (none, m)
      else do
        let t := { t with ts := if t.empty > 0 ∧ t.state < 1 then t.ts + 1 else t.ts, empty := 0, state := t.state - 1 }
        if t.state > 0 then do
          let (s, m) ← m.headerLine f line b n
          match s with
          | none => ok (none, m)
          | some s => ok (some { t with names := s }, m)
        else do
          let (good, m) ← m.dataLine f t.ts t.names line b n
          if good then ok (some t, m) else ok (none, m)

/-- The loop of `nip_analyse_data_file`, `src/nipparsers.c:132-223`. -/
def linesInMemory (f : MemPtr) (sep : Char) : (lines : List (List Char)) → FileRun → FileMemory → Res (Option FileRun × FileMemory)
  | [], t, m => ok (some t, m)
  | line :: rest, t, m => do
    let (t, m) ← m.lineInMemory f sep line t
    match t with
    | none => ok (none, m)
    | some t => linesInMemory f sep rest t m

/-- The lists become arrays, `src/nipparsers.c:226-231`, for one column. -/
def storeNames (m : FileMemory) (f names : MemPtr) (i : Nat) : Res FileMemory := do
  let c ← m.fileCellAt f
  let l ← m.filePtrAt names i
  let h ← m.nameListAt l
  let m ← m.setFileInt c.counts i h.length
  let (a, m) ← m.namesToArray l
  let m ← m.setFilePtr c.states i a
  let m ← m.emptyNames l
  m.free l

/-- `nip_analyse_data_file`, `src/nipparsers.c:97-238`; `none` is the return with -1. -/
def analyseData (m : FileMemory) (f : MemPtr) (sep : Char) (lines : List (List Char)) : Res (Option Nat × FileMemory) := do
  let c ← m.fileCellAt f
  if c.write then ok (some 0, m)
  else do
    let (rows, _) ← countDataRows sep c.header lines
    let (d, m) := m.alloc (.ints (List.replicate rows 0))
    let m ← m.put f (.file { c with ndatarows := rows, datarows := d })
    if d == .null then ok (none, m)
    else do
      let (t, m) ← linesInMemory f sep lines { state := if c.header then 2 else 1, ts := 0, empty := 0, names := .null } m
      match t with
      | none => ok (none, m)
      | some t => do
        let c ← m.fileCellAt f
        let m ← loop c.nodes (fun i m => m.storeNames f t.names i) m
        let m ← m.free t.names
        ok (some t.ts, m)

/-- The states of one column are freed, `src/nipparsers.c:431-433`. -/
def freeStates (m : FileMemory) (states counts : MemPtr) (i : Nat) : Res FileMemory := do
  let l ← m.fileIntsAt counts
  let n ← rd l i
  let a ← m.filePtrAt states i
  let m ← m.freeFilePtrs a n
  m.free a

/-- The names of the columns are freed, `src/nipparsers.c:424-428`. -/
def freeSymbols (m : FileMemory) (c : FileCell) : Res FileMemory := do
  let null ← c.symbols.isNull
  if null then ok m
  else do
    let m ← m.freeFilePtrs c.symbols c.nodes
    m.free c.symbols

/-- The states of all columns are freed, `src/nipparsers.c:429-436`. -/
def freeAllStates (m : FileMemory) (c : FileCell) : Res FileMemory := do
  let null ← c.states.isNull
  if null then ok m
  else do
    let m ← loop c.nodes (fun i m => m.freeStates c.states c.counts i) m
    m.free c.states

/-- `nip_free_data_file`, `src/nipparsers.c:418-440` -/
def freeData (m : FileMemory) (f : MemPtr) : Res FileMemory := do
  let null ← f.isNull
  if null then ok m
  else do
    let c ← m.fileCellAt f
    let m ← m.free c.name
    let m ← m.freeSymbols c
    let m ← m.freeAllStates c
    let m ← m.free c.counts
    let m ← m.free c.datarows
    m.free f

/-- `nip_close_data_file`, `src/nipparsers.c:403-414` -/
def closeData (m : FileMemory) (f : MemPtr) : Res FileMemory := do
  let null ← f.isNull
  if null then ok m else m.freeData f

/-- The start of `read_timeseries`, `src/nip.c:528-537`: the file, or `none` when the function returns 0 at `:532` or `:536`. -/
def openSeries (m : FileMemory) (filename : List Char) (opens : Bool) (sep : Char) (lines : List (List Char)) : Res (Option MemPtr × FileMemory) := do
  let (f, m) ← m.openData filename false true opens
  if f == .null then ok (none, m)
  else do
    let (r, m) ← m.analyseData f sep lines
    match r with
    | none => ok (none, m)
    | some _ => ok (some f, m)

end Store

end Nip
