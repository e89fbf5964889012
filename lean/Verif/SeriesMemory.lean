import Verif.PotentialMemory
import Verif.Spec.SeriesMemory

/-!
# The memory of time series and of the results of inference

The memory of `Verif/PotentialMemory.lean` with other blocks.  Simplified: of arrays of numbers and of references to variables only the length is kept (what is written into them
and where is in `Verif/Series.lean` and `Verif/Dynamic.lean`); a data file and a potential are one block each (for potentials see `Verif/PotentialMemory.lean`); integers are
unbounded.
-/

namespace Nip

open Res

/-- `time_series_struct`, `src/nip.h`, without the model and the numbers of variables -/
structure SeriesCell where
  length : Nat
  hidden : MemPtr
  observed : MemPtr
  data : MemPtr
deriving Repr, DecidableEq

/-- `uncertain_series_struct`, `src/nip.h` -/
structure ResultsCell where
  vars : Nat
  length : Nat
  asked : MemPtr
  data : MemPtr
deriving Repr, DecidableEq

/-- What is in a block. -/
inductive SeriesBlock where
  | series (c : SeriesCell)
  | results (c : ResultsCell)
  | pointers (l : List MemPtr)
  | references (n : Nat)
  | numbers (n : Nat)
  | text
  | potential
  | file
deriving Repr, DecidableEq

abbrev SeriesMemory := Store SeriesBlock

namespace Store

/-- read a series -/
def seriesAt (m : SeriesMemory) (p : MemPtr) : Res SeriesCell := do
  match ← m.get p with
  | .series c => ok c
  | _ => ub

/-- read results -/
def resultsAt (m : SeriesMemory) (p : MemPtr) : Res ResultsCell := do
  match ← m.get p with
  | .results c => ok c
  | _ => ub

/-- read an array of pointers -/
def pointersAt (m : SeriesMemory) (p : MemPtr) : Res (List MemPtr) := do
  match ← m.get p with
  | .pointers l => ok l
  | _ => ub

/-- `a[i]` for an array of pointers -/
def entryAt (m : SeriesMemory) (a : MemPtr) (i : Nat) : Res MemPtr := do
  let l ← m.pointersAt a
  rd l i

/-- `a[i] = p` for an array of pointers -/
def setEntry (m : SeriesMemory) (a : MemPtr) (i : Nat) (p : MemPtr) : Res SeriesMemory := do
  let l ← m.pointersAt a
  let l ← wr l i p
  m.put a (.pointers l)

/-- `free(a[i])` -/
def freeEntry (m : SeriesMemory) (a : MemPtr) (i : Nat) : Res SeriesMemory := do
  let p ← m.entryAt a i
  m.free p

/-- `for(i = 0; i < n; i++) free(a[i])`, for example `src/nip.c:807-808` -/
def freeUp (m : SeriesMemory) (a : MemPtr) (n : Nat) : Res SeriesMemory :=
  loop n (fun i m => m.freeEntry a i) m

/-- `while(i > 0) free(a[--i])`, for example `src/nip.c:1200-1201` -/
def freeDown (m : SeriesMemory) (a : MemPtr) (n : Nat) : Res SeriesMemory :=
  loopDown n (fun i m => m.freeEntry a i) m

/-- `for(i = 0; i < vars; i++) free(data[t][i]); free(data[t]);`, for example `src/nip.c:911-913` -/
def freeStep (m : SeriesMemory) (data : MemPtr) (vars t : Nat) : Res SeriesMemory := do
  let p ← m.entryAt data t
  let m ← m.freeUp p vars
  m.free p

/-- `free_timeseries`, `src/nip.c:803-815` -/
def freeSeries (m : SeriesMemory) (ts : MemPtr) : Res SeriesMemory := do
  let null ← ts.isNull
  if null then ok m
  else do
    let c ← m.seriesAt ts
    let null ← c.data.isNull
    let m ← if null then ok m
      else do
        let m ← m.freeUp c.data c.length
        m.free c.data
    let m ← m.free c.hidden
    let m ← m.free c.observed
    m.free ts

/-- `free_uncertainseries`, `src/nip.c:907-919` -/
def freeResults (m : SeriesMemory) (ucs : MemPtr) : Res SeriesMemory := do
  let null ← ucs.isNull
  if null then ok m
  else do
    let c ← m.resultsAt ucs
    let m ← loop c.length (fun t m => m.freeStep c.data c.vars t) m
    let m ← m.free c.data
    let m ← m.free c.asked
    m.free ucs

/-- Blocks for the entries of an array of pointers from `i` on, one after the other: `src/nip.c:621-635`, `:1196-1218`, `:1669-1680`.  When there is no memory the entries so far
are freed (`release`).  Returns whether there was memory. -/
def newEntries (release : SeriesMemory → MemPtr → Nat → Res SeriesMemory) (a : MemPtr) : (sizes : List Nat) → (i : Nat) → SeriesMemory → Res (Bool × SeriesMemory)
  | [], _, m => ok (true, m)
  | n :: rest, i, m => do
    let (p, m) := m.alloc (.numbers n)
    let m ← m.setEntry a i p
    if p == .null then do
      let m ← release m a i
      ok (false, m)
    else newEntries release a rest (i + 1) m

/-- The steps of the results from `t` on, `src/nip.c:1178-1219` and `:1393-1434`.  When there is no memory all steps so far are freed.  Returns whether there was memory. -/
def newSteps (data : MemPtr) (cards : List Nat) : (k t : Nat) → SeriesMemory → Res (Bool × SeriesMemory)
  | 0, _, m => ok (true, m)
  | k + 1, t, m => do
    let (p, m) := m.alloc (.pointers (List.replicate cards.length .null))
    let m ← m.setEntry data t p
    if p == .null then do
      let m ← loopDown t (fun t m => m.freeStep data cards.length t) m
      ok (false, m)
    else do
      let (good, m) ← newEntries freeDown p cards 0 m
      if good then newSteps data cards k (t + 1) m
      else do
        let m ← m.free p
        let m ← loopDown t (fun t m => m.freeStep data cards.length t) m
        ok (false, m)

/-- The space for the results, `src/nip.c:1141-1219` and `:1355-1434`.  Returns the results (or NULL) and the array `cardinalities`. -/
def newResults (m : SeriesMemory) (interface : Nat) (cards : List Nat) (length : Nat) : Res (MemPtr × MemPtr × SeriesMemory) := do
  let (c, m) := if 0 < interface then m.alloc (.numbers interface) else (.null, m)
  if decide (0 < interface) && c == .null then ok (.null, .null, m)
  else do
    let (r, m) := m.alloc (.results { vars := 0, length := 0, asked := .junk, data := .junk })
    if r == .null then do
      let m ← m.free c
      ok (.null, .null, m)
    else do
      let (vs, m) := m.alloc (.references cards.length)
      if vs == .null then do
        let m ← m.free r
        let m ← m.free c
        ok (.null, .null, m)
      else do
        let (d, m) := m.alloc (.pointers (List.replicate length .null))
        let m ← m.put r (.results { vars := cards.length, length := length, asked := vs, data := d })
        if d == .null then do
          let m ← m.free vs
          let m ← m.free r
          let m ← m.free c
          ok (.null, .null, m)
        else do
          let (good, m) ← newSteps d cards length 0 m
          if good then ok (r, c, m)
          else do
            let m ← m.free d
            let m ← m.free vs
            let m ← m.free r
            let m ← m.free c
            ok (.null, .null, m)

/-- `forward_inference`, `src/nip.c:1130-1335`; `good` says whether all messages were passed without an error (the branches at `:1243-1248` and `:1311-1317` are not taken). -/
def filter (m : SeriesMemory) (interface : Nat) (cards : List Nat) (ts : MemPtr) (good : Bool) : Res (MemPtr × SeriesMemory) := do
  let s ← m.seriesAt ts
  let (r, c, m) ← m.newResults interface cards s.length
  if r == .null then ok (.null, m)
  else do
    let (alpha, m) := m.alloc .potential
    let m ← m.free c
    if good then do
      let m ← m.free alpha
      ok (r, m)
    else do
      let m ← m.freeResults r
      let m ← m.free alpha
      ok (.null, m)

/-- The intermediate potentials, `src/nip.c:1440-1444`.  A potential that could not be created is NULL. -/
def newMessages (m : SeriesMemory) (a : MemPtr) (n : Nat) : Res SeriesMemory :=
  loop n (fun t (m : SeriesMemory) => do
    let (p, m) := m.alloc .potential
    m.setEntry a t p) m

/-- `forward_backward_inference`, `src/nip.c:1341-1603`; `good` as for `filter` (the branches at `:1456-1464`, `:1498-1505`, `:1525-1532`, `:1542-1549`, `:1578-1585` are not
taken). -/
def smooth (m : SeriesMemory) (interface : Nat) (cards : List Nat) (ts : MemPtr) (good : Bool) : Res (MemPtr × SeriesMemory) := do
  let s ← m.seriesAt ts
  let (r, c, m) ← m.newResults interface cards s.length
  if r == .null then ok (.null, m)
  else do
    let (a, m) := m.alloc (.pointers (List.replicate (s.length + 1) .null))
    let m ← m.newMessages a (s.length + 1)
    let m ← m.free c
    if good then do
      let m ← m.freeUp a (s.length + 1)
      let m ← m.free a
      ok (r, m)
    else do
      let m ← m.freeResults r
      let m ← m.freeUp a (s.length + 1)
      let m ← m.free a
      ok (.null, m)

/-- `mlss`, `src/nip.c:1639-1716`. -/
def mostLikely (m : SeriesMemory) (vars asked : Nat) (ts : MemPtr) : Res (MemPtr × SeriesMemory) := do
  let (p, m) := m.alloc (.series { length := 0, hidden := .junk, observed := .junk, data := .junk })
  if p == .null then ok (.null, m)
  else do
    let (h, m) := m.alloc (.references (vars - asked))
    let (o, m) := m.alloc (.references asked)
    let s ← m.seriesAt ts
    let (d, m) := m.alloc (.pointers (List.replicate s.length .null))
    let m ← m.put p (.series { length := s.length, hidden := h, observed := o, data := d })
    if d == .null || o == .null || h == .null then do
      let m ← m.free d
      let m ← m.free o
      let m ← m.free h
      let m ← m.free p
      ok (.null, m)
    else do
      let (good, m) ← newEntries freeDown d (List.replicate s.length asked) 0 m
      if good then ok (p, m)
      else do
        let m ← m.free d
        let m ← m.free o
        let m ← m.free h
        let m ← m.free p
        ok (.null, m)

/-- The loop of `nip_next_line_tokens`, `src/nipparsers.c:490-514`: tokens from `i` on.  When there is no memory the data file is freed; then `free(*tokens[j])` frees the array of
tokens for `j = 0` and reads behind the variable `tokens` for other `j`; then the array is freed (again).  Returns whether there was memory. -/
def newTokens (df bounds a : MemPtr) : (k i : Nat) → SeriesMemory → Res (Bool × SeriesMemory)
  | 0, _, m => ok (true, m)
  | k + 1, i, m => do
    let (t, m) := m.alloc .text
    if t == .null then do
      let m ← m.free df
      let m ← loop i (fun j m => if j = 0 then m.free a else ub) m
      let m ← m.free a
      let m ← m.free bounds
      ok (false, m)
    else do
      let m ← m.setEntry a i t
      newTokens df bounds a k (i + 1) m

/-- `nip_next_line_tokens`, `src/nipparsers.c:443-523`, for a line of which `n` fields are used.  Returns the number of tokens (`none` is -1) and the new value of the variable
`tokens` of the caller.  The test at `:485` is about the address of that variable and never fails. -/
def nextTokens (m : SeriesMemory) (df tokens : MemPtr) (n : Nat) : Res (Option Nat × MemPtr × SeriesMemory) := do
  let _ ← m.get df
  let (b, m) := m.alloc (.numbers (2 * n))
  if b == .null then ok (none, tokens, m)
  else do
    let (a, m) := m.alloc (.pointers (List.replicate n .null))
    let (good, m) ← newTokens df b a n 0 m
    if good then do
      let m ← m.free b
      ok (some n, a, m)
    else ok (none, a, m)

/-- One line of a time series, `src/nip.c:638-668`.  The loop at `:653` reads `tokens[i]` for the variables of the model and ends at the number of tokens, which is never reached
when it is -1.  Returns the value of `tokens`. -/
def readLine (m : SeriesMemory) (df tokens : MemPtr) (known : List Bool) (n : Nat) : Res (MemPtr × SeriesMemory) := do
  let (k, tokens, m) ← m.nextTokens df tokens n
  let _ ← m.get df
  let _ ← loop (min (k.getD known.length) known.length) (fun i (_ : Unit) => do
    let v ← rd known i
    if v then do
      let _ ← m.entryAt tokens i
      ok ()
    else ok ()) ()
  let m ← m.freeUp tokens (k.getD 0)
  let m ← m.free tokens
  ok (tokens, m)

/-- The lines of a time series, `src/nip.c:638`. -/
def readLines (df : MemPtr) (known : List Bool) : (lines : List Nat) → MemPtr → SeriesMemory → Res (MemPtr × SeriesMemory)
  | [], tokens, m => ok (tokens, m)
  | n :: rest, tokens, m => do
    let (tokens, m) ← m.readLine df tokens known n
    readLines df known rest tokens m

/-- One time series, `src/nip.c:549-669`.  Returns the series or NULL, and the value of `tokens`. -/
def readOne (m : SeriesMemory) (vars : Nat) (known : List Bool) (df results : MemPtr) (lines : List Nat) (tokens : MemPtr) : Res (MemPtr × MemPtr × SeriesMemory) := do
  let (ts, m) := m.alloc (.series { length := lines.length, hidden := .null, observed := .null, data := .null })
  if ts == .null then do
    let m ← m.free results
    let m ← m.free df
    ok (.null, tokens, m)
  else do
    let obs := known.count true
    let (h, m) := m.alloc (.references (vars - obs))
    let (o, m) := if 0 < obs then m.alloc (.references obs) else (.null, m)
    let m ← m.put ts (.series { length := lines.length, hidden := h, observed := o, data := .null })
    if h == .null || (o == .null && decide (0 < obs)) then do
      let m ← m.free h
      let m ← m.free ts
      let m ← m.free results
      let m ← m.free df
      ok (.null, tokens, m)
    else if 0 < obs then do
      let (d, m) := m.alloc (.pointers (List.replicate lines.length .null))
      let m ← m.put ts (.series { length := lines.length, hidden := h, observed := o, data := d })
      if d == .null then do
        let m ← m.free h
        let m ← m.free o
        let m ← m.free ts
        let m ← m.free results
        let m ← m.free df
        ok (.null, tokens, m)
      else do
        let (good, m) ← newEntries freeUp d (List.replicate lines.length obs) 0 m
        if good then do
          let (tokens, m) ← readLines df known lines tokens m
          ok (ts, tokens, m)
        else do
          let m ← m.free d
          let m ← m.free h
          let m ← m.free o
          let m ← m.free ts
          let m ← m.free results
          let m ← m.free df
          ok (.null, tokens, m)
    else ok (ts, tokens, m)

/-- The time series of a file from number `n` on, `src/nip.c:548-674`.  Returns whether all were read. -/
def readAll (vars : Nat) (known : List Bool) (df results : MemPtr) : (series : List (List Nat)) → (n : Nat) → MemPtr → SeriesMemory → Res (Bool × SeriesMemory)
  | [], _, _, m => ok (true, m)
  | lines :: rest, n, tokens, m => do
    let (ts, tokens, m) ← m.readOne vars known df results lines tokens
    if ts == .null then ok (false, m)
    else do
      let m ← m.setEntry results n ts
      readAll vars known df results rest (n + 1) tokens m

/-- `read_timeseries`, `src/nip.c:519-678`.  Returns the number of series and `*results` (NULL if it was not set).  Simplified: the data file is one block, and its analysis
(`src/nip.c:534`) needs no more memory. -/
def readSeries (m : SeriesMemory) (vars : Nat) (file : Spec.FileShape) : Res (Nat × MemPtr × SeriesMemory) := do
  let (df, m) := m.alloc .file
  if df == .null then ok (0, .null, m)
  else do
    let (r, m) := m.alloc (.pointers (List.replicate file.series.length .null))
    if r == .null then do
      let m ← m.free df
      ok (0, .null, m)
    else do
      let (good, m) ← readAll vars file.known df r file.series 0 .null m
      if good then do
        let m ← m.free df
        ok (file.series.length, r, m)
      else ok (0, r, m)

/-- `write_uncertainseries`, `src/nip.c:826-904`, with correct arguments: `found` says for each set of results whether the variable is in it, `opens` and `closes` whether the file
can be opened and closed.  Returns whether there was an error. -/
def writeResults (m : SeriesMemory) (found : List Bool) (opens closes : Bool) : Res (Bool × SeriesMemory) := do
  let (v, m) := m.alloc (.numbers found.length)
  if v == .null then ok (true, m)
  else if found.all id then
    if opens then do
      let m ← m.free v
      ok (!closes, m)
    else do
      let m ← m.free v
      ok (true, m)
  else ok (true, m)

end Store

/-- the memory and all that the program got, in order -/
structure SeriesWorld where
  mem : SeriesMemory
  handles : List MemPtr

/-- nothing has happened -/
def SeriesWorld.start (fails : Nat → Bool) : SeriesWorld := { mem := Store.empty fails, handles := [] }

/-- one call; after reading a file the program has the array and its entries -/
def SeriesWorld.step (w : SeriesWorld) : Spec.SeriesCall → Res SeriesWorld
  | .read vars file => do
    let (n, r, m) ← w.mem.readSeries vars file
    let l ← m.pointersAt r
    if l.length = n then ok { mem := m, handles := w.handles ++ r :: l } else ub
  | .filter interface cards v good => do
    let ts ← rd w.handles v
    let (p, m) ← w.mem.filter interface cards ts good
    ok { mem := m, handles := w.handles ++ [p] }
  | .smooth interface cards v good => do
    let ts ← rd w.handles v
    let (p, m) ← w.mem.smooth interface cards ts good
    ok { mem := m, handles := w.handles ++ [p] }
  | .mlss vars asked v => do
    let ts ← rd w.handles v
    let (p, m) ← w.mem.mostLikely vars asked ts
    ok { mem := m, handles := w.handles ++ [p] }
  | .freeSeries v => do
    let p ← rd w.handles v
    let m ← w.mem.freeSeries p
    ok { w with mem := m }
  | .freeResults v => do
    let p ← rd w.handles v
    let m ← w.mem.freeResults p
    ok { w with mem := m }
  | .freeArray v => do
    let p ← rd w.handles v
    let m ← w.mem.free p
    ok { w with mem := m }

/-- a history of calls -/
def SeriesWorld.run (w : SeriesWorld) : List Spec.SeriesCall → Res SeriesWorld
  | [] => ok w
  | a :: h => do
    let w ← w.step a
    w.run h

end Nip
