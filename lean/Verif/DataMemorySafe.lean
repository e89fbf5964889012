import Verif.DataMemoryFile

/-!
# Lemmas about the memory of data files: whichever allocations fail

A file is at address `n` and its name at `n + 1`.  Whatever fails in the analysis, all that is done to memory happens at later addresses, or it is a change of the file.
-/

namespace Nip

open Res Store

/-- what holds of the result if there is one -/
def Yields {α : Type} (r : Res α) (Q : α → Prop) : Prop := ∀ x, r = ok x → Q x

theorem Yields.ok {α : Type} {x : α} {Q : α → Prop} (h : Q x) : Yields (Res.ok x) Q := by
  intro y e
  cases e
  exact h

theorem Yields.ub {α : Type} {Q : α → Prop} : Yields (Res.ub : Res α) Q := by
  intro y e
  cases e

theorem Yields.bind {α β : Type} {r : Res α} {f : α → Res β} {Q : α → Prop} {R : β → Prop} (h : Yields r Q) (h' : ∀ x, Q x → Yields (f x) R) : Yields (r >>= f) R := by
  intro y e
  obtain ⟨x, e1, e2⟩ := bind_ok e
  exact h' x (h x e1) y e2

/-- a result about which nothing needs to be known -/
theorem Yields.any {α β : Type} {r : Res α} {f : α → Res β} {R : β → Prop} (h' : ∀ x, Yields (f x) R) : Yields (r >>= f) R := Yields.bind (Q := fun _ => True) (fun _ _ => trivial) (fun x _ => h' x)

theorem Yields.ite {α : Type} {c : Prop} [Decidable c] {r r' : Res α} {Q : α → Prop} (h : c → Yields r Q) (h' : ¬ c → Yields r' Q) : Yields (if c then r else r') Q := by
  split
  · exact h ‹_›
  · exact h' ‹_›

theorem Yields.loop {σ : Type} {f : Nat → σ → Res σ} {s : σ} {Q : σ → Prop} (n : Nat) (h : Q s) (hf : ∀ i s, Q s → Yields (f i s) Q) : Yields (loop n f s) Q := by
  induction n with
  | zero => exact Yields.ok h
  | succ n ih =>
    rw [loop_succ]
    exact Yields.bind ih (hf n)

/-- not one of the first addresses -/
def MemPtr.Far (n : Nat) (p : MemPtr) : Prop := ∀ a, p = .block a → n + 2 ≤ a

theorem far_null {n : Nat} : MemPtr.Far n .null := by intro a h; cases h

theorem far_junk {n : Nat} : MemPtr.Far n .junk := by intro a h; cases h

/-- all pointers in a block, except the name of a file -/
def FileBlock.Far (n : Nat) : FileBlock → Prop
  | .file c => c.datarows.Far n ∧ c.symbols.Far n ∧ c.counts.Far n ∧ c.states.Far n
  | .text _ => True
  | .ints _ => True
  | .pointers l => ∀ q ∈ l, q.Far n
  | .list h => h.first.Far n ∧ h.last.Far n
  | .link k => k.data.Far n ∧ k.fwd.Far n ∧ k.bwd.Far n

theorem far_nulls {n : Nat} (k : Nat) : FileBlock.Far n (.pointers (List.replicate k .null)) := by
  intro q hq
  rw [List.eq_of_mem_replicate hq]
  exact far_null

/-- what is kept -/
structure Safe (n : Nat) (m0 m : FileMemory) : Prop where
  old : ∀ b, b < n → m.blocks b = m0.blocks b
  next : n + 2 ≤ m.next
  file : ∃ c, m.blocks n = some (.file c)
  name : ∃ w, m.blocks (n + 1) = some (.text w)
  refs : ∀ b x, n ≤ b → m.blocks b = some x → x.Far n

variable {n : Nat} {m0 m : FileMemory}

theorem Safe.alloc (h : Safe n m0 m) {x : FileBlock} (hx : x.Far n) : Safe n m0 (m.alloc x).2 ∧ (m.alloc x).1.Far n := by
  have hn := h.next
  unfold Store.alloc
  split
  · exact ⟨⟨h.old, by simp only; omega, h.file, h.name, h.refs⟩, far_null⟩
  · have hne : ∀ b, b < n + 2 → Function.update m.blocks m.next (some x) b = m.blocks b := fun b hb => Function.update_of_ne (by omega) _ _
    refine ⟨⟨fun b hb => ?_, by simp only; omega, ?_, ?_, fun b y hb hy => ?_⟩, fun a e => by cases e; exact hn⟩
    · simp only; rw [hne b (by omega)]; exact h.old b hb
    · simp only; rw [hne n (by omega)]; exact h.file
    · simp only; rw [hne (n + 1) (by omega)]; exact h.name
    · simp only at hy
      by_cases hb' : b = m.next
      · rw [hb', Function.update_self] at hy
        cases hy
        exact hx
      · rw [Function.update_of_ne hb'] at hy
        exact h.refs b y hb hy

theorem Safe.free (h : Safe n m0 m) {p : MemPtr} (hp : p.Far n) : Yields (m.free p) (Safe n m0) := by
  cases p with
  | junk => exact Yields.ub
  | null => exact Yields.ok h
  | block a =>
    have ha := hp a rfl
    unfold Store.free
    simp only
    cases e : m.blocks a with
    | none => exact Yields.ub
    | some y =>
      refine Yields.ok ?_
      have hne : ∀ b, b < n + 2 → Function.update m.blocks a none b = m.blocks b := fun b hb => Function.update_of_ne (by omega) _ _
      refine ⟨fun b hb => ?_, h.next, ?_, ?_, fun b y hb hy => ?_⟩
      · simp only; rw [hne b (by omega)]; exact h.old b hb
      · simp only; rw [hne n (by omega)]; exact h.file
      · simp only; rw [hne (n + 1) (by omega)]; exact h.name
      · simp only at hy
        by_cases hb' : b = a
        · rw [hb', Function.update_self] at hy; cases hy
        · rw [Function.update_of_ne hb'] at hy
          exact h.refs b y hb hy

theorem Safe.put (h : Safe n m0 m) {p : MemPtr} {x : FileBlock} (hp : p.Far n) (hx : x.Far n) : Yields (m.put p x) (Safe n m0) := by
  cases p with
  | junk => exact Yields.ub
  | null => exact Yields.ub
  | block a =>
    have ha := hp a rfl
    unfold Store.put
    simp only
    cases e : m.blocks a with
    | none => exact Yields.ub
    | some y =>
      refine Yields.ok ?_
      have hne : ∀ b, b < n + 2 → Function.update m.blocks a (some x) b = m.blocks b := fun b hb => Function.update_of_ne (by omega) _ _
      refine ⟨fun b hb => ?_, h.next, ?_, ?_, fun b y hb hy => ?_⟩
      · simp only; rw [hne b (by omega)]; exact h.old b hb
      · simp only; rw [hne n (by omega)]; exact h.file
      · simp only; rw [hne (n + 1) (by omega)]; exact h.name
      · simp only at hy
        by_cases hb' : b = a
        · rw [hb', Function.update_self] at hy; cases hy; exact hx
        · rw [Function.update_of_ne hb'] at hy
          exact h.refs b y hb hy

theorem Safe.putFile (h : Safe n m0 m) {c : FileCell} (hx : FileBlock.Far n (.file c)) : Yields (m.put (.block n) (.file c)) (Safe n m0) := by
  unfold Store.put
  simp only
  obtain ⟨y, e⟩ := h.file
  rw [e]
  refine Yields.ok ⟨fun b hb => ?_, h.next, ⟨c, ?_⟩, ?_, fun b y hb hy => ?_⟩
  · simp only; rw [Function.update_of_ne (by omega)]; exact h.old b hb
  · simp only; rw [Function.update_self]
  · simp only; rw [Function.update_of_ne (by omega)]; exact h.name
  · simp only at hy
    by_cases hb' : b = n
    · rw [hb', Function.update_self] at hy; cases hy; exact hx
    · rw [Function.update_of_ne hb'] at hy
      exact h.refs b y hb hy

theorem Safe.get (h : Safe n m0 m) {p : MemPtr} (hp : ∀ a, p = .block a → n ≤ a) : Yields (m.get p) (fun x => x.Far n) := by
  cases p with
  | junk => exact Yields.ub
  | null => exact Yields.ub
  | block a =>
    unfold Store.get
    simp only
    cases e : m.blocks a with
    | none => exact Yields.ub
    | some y => exact Yields.ok (h.refs a y (hp a rfl) e)

theorem MemPtr.Far.le {p : MemPtr} (hp : p.Far n) : ∀ a, p = .block a → n ≤ a := fun a e => by have := hp a e; omega

theorem Safe.cell (h : Safe n m0 m) : Yields (m.fileCellAt (.block n)) (fun c => FileBlock.Far n (.file c)) := by
  unfold fileCellAt
  refine Yields.bind (h.get (fun a e => by cases e; exact le_rfl)) (fun x hx => ?_)
  cases x <;> first | exact Yields.ok hx | exact Yields.ub

theorem Safe.ptrs (h : Safe n m0 m) {p : MemPtr} (hp : p.Far n) : Yields (m.filePtrsAt p) (fun l => ∀ q ∈ l, q.Far n) := by
  unfold filePtrsAt
  refine Yields.bind (h.get hp.le) (fun x hx => ?_)
  cases x <;> first | exact Yields.ok hx | exact Yields.ub

theorem Safe.listAt (h : Safe n m0 m) {p : MemPtr} (hp : p.Far n) : Yields (m.nameListAt p) (fun c => c.first.Far n ∧ c.last.Far n) := by
  unfold nameListAt
  refine Yields.bind (h.get hp.le) (fun x hx => ?_)
  cases x <;> first | exact Yields.ok hx | exact Yields.ub

theorem Safe.linkAt (h : Safe n m0 m) {p : MemPtr} (hp : p.Far n) : Yields (m.nameLinkAt p) (fun c => c.data.Far n ∧ c.fwd.Far n ∧ c.bwd.Far n) := by
  unfold nameLinkAt
  refine Yields.bind (h.get hp.le) (fun x hx => ?_)
  cases x <;> first | exact Yields.ok hx | exact Yields.ub

theorem Safe.ptr (h : Safe n m0 m) {p : MemPtr} (hp : p.Far n) (i : Nat) : Yields (m.filePtrAt p i) (fun q => q.Far n) := by
  unfold filePtrAt
  refine Yields.bind (h.ptrs hp) (fun l hl => ?_)
  intro q e
  exact hl q (List.mem_of_getElem? (rd_eq_ok.1 e))

theorem Safe.setPtr (h : Safe n m0 m) {p q : MemPtr} (hp : p.Far n) (hq : q.Far n) (i : Nat) : Yields (m.setFilePtr p i q) (Safe n m0) := by
  unfold setFilePtr
  refine Yields.bind (h.ptrs hp) (fun l hl => Yields.bind (Q := fun l' : List MemPtr => ∀ r ∈ l', MemPtr.Far n r) ?_ (fun l' hl' => h.put hp hl'))
  intro l' e r hr
  unfold wr at e
  split at e
  · cases e
    rcases List.mem_or_eq_of_mem_set hr with hr | rfl
    · exact hl r hr
    · exact hq
  · cases e

theorem Safe.setInt (h : Safe n m0 m) {p : MemPtr} (hp : p.Far n) (i x : Nat) : Yields (m.setFileInt p i x) (Safe n m0) := by
  unfold setFileInt
  exact Yields.any fun l => Yields.any fun l' => h.put hp trivial

theorem Safe.prepend (h : Safe n m0 m) {l s : MemPtr} (hl : l.Far n) (hs : s.Far n) : Yields (m.prependName l s) (fun r => Safe n m0 r.2) := by
  unfold prependName
  refine Yields.any fun _ => Yields.any fun _ => Yields.ite (fun _ => Yields.ok h) fun _ => ?_
  obtain ⟨h1, f1⟩ := h.alloc (x := .link { data := .junk, fwd := .junk, bwd := .junk }) ⟨far_junk, far_junk, far_junk⟩
  generalize m.alloc (.link { data := .junk, fwd := .junk, bwd := .junk }) = w at h1 f1 ⊢
  obtain ⟨p, m1⟩ := w
  refine Yields.ite (fun _ => Yields.ok h1) fun _ => ?_
  refine Yields.bind (h1.listAt hl) fun c hc => Yields.bind (h1.put f1 ⟨hs, hc.1, far_null⟩) fun m2 h2 => Yields.any fun e => ?_
  have hlast : MemPtr.Far n (if e = true then p else c.last) := by
    split
    · exact f1
    · exact hc.2
  refine Yields.ite (fun _ => Yields.bind (Yields.ok h2) fun m3 h3 => Yields.bind (h3.put hl ⟨f1, hlast⟩) fun m4 h4 => Yields.ok h4) fun _ => ?_
  exact Yields.bind (h2.linkAt hc.1) fun k hk => Yields.bind (h2.put hc.1 ⟨hk.1, hk.2.1, f1⟩) fun m3 h3 => Yields.bind (h3.put hl ⟨f1, hlast⟩) fun m4 h4 => Yields.ok h4

theorem Safe.toArray (h : Safe n m0 m) {l : MemPtr} (hl : l.Far n) : Yields (m.namesToArray l) (fun r => Safe n m0 r.2 ∧ r.1.Far n) := by
  unfold namesToArray
  refine Yields.any fun _ => Yields.ite (fun _ => Yields.ok ⟨h, far_null⟩) fun _ => Yields.bind (h.listAt hl) fun c hc => Yields.ite (fun _ => Yields.ok ⟨h, far_null⟩) fun _ => ?_
  obtain ⟨h1, f1⟩ := h.alloc (x := .pointers (List.replicate c.length .null)) (far_nulls _)
  refine Yields.ite (fun _ => Yields.ok ⟨h1, far_null⟩) fun _ => ?_
  refine Yields.bind (Yields.loop (Q := fun st : MemPtr × FileMemory => st.1.Far n ∧ Safe n m0 st.2) _ ⟨hc.1, h1⟩ ?_) fun r hr => Yields.ok ⟨hr.2, f1⟩
  rintro i st ⟨g1, g2⟩
  exact Yields.bind (g2.linkAt g1) fun k hk => Yields.bind (g2.setPtr f1 hk.1 i) fun m' h' => Yields.ok ⟨hk.2.1, h'⟩

theorem Safe.emptyBack (fuel : Nat) {m : FileMemory} (h : Safe n m0 m) {p : MemPtr} (hp : p.Far n) : Yields (m.emptyBack fuel p) (Safe n m0) := by
  induction fuel generalizing m p with
  | zero => exact Yields.ub
  | succ fuel ih =>
    rw [Store.emptyBack]
    exact Yields.any fun _ => Yields.ite (fun _ => Yields.ok h) fun _ => Yields.bind (h.linkAt hp) fun k hk => Yields.bind (h.free hk.2.1) fun m1 h1 =>
      Yields.bind (h1.linkAt hp) fun k' hk' => ih h1 hk'.2.2

theorem Safe.emptyNames (h : Safe n m0 m) {l : MemPtr} (hl : l.Far n) : Yields (m.emptyNames l) (Safe n m0) := by
  unfold Store.emptyNames
  exact Yields.any fun _ => Yields.ite (fun _ => Yields.ok h) fun _ => Yields.bind (h.listAt hl) fun c hc => Yields.bind (h.put hl ⟨hc.1, far_null⟩) fun m1 h1 =>
    Yields.bind (Safe.emptyBack _ h1 hc.2) fun m2 h2 => Yields.bind (h2.free hc.1) fun m3 h3 => h3.put hl ⟨far_null, far_null⟩

theorem Safe.freeName (h : Safe n m0 m) {p : MemPtr} (hp : p.Far n) : Yields (m.freeName p) (Safe n m0) := by
  unfold Store.freeName
  exact Yields.bind (h.linkAt hp) fun k hk => Yields.bind (h.free hk.1) fun m1 h1 => h1.free hp

theorem Safe.freeNamesBack (fuel : Nat) {m : FileMemory} (h : Safe n m0 m) {p : MemPtr} (hp : p.Far n) : Yields (m.freeNamesBack fuel p) (Safe n m0) := by
  induction fuel generalizing m p with
  | zero => exact Yields.ub
  | succ fuel ih =>
    rw [Store.freeNamesBack]
    refine Yields.any fun _ => Yields.ite (fun _ => Yields.ok h) fun _ => Yields.bind (h.linkAt hp) fun k hk => Yields.any fun _ => Yields.ite (fun _ => ?_) fun _ => ?_
    · exact Yields.bind (Yields.ok h) fun m1 h1 => Yields.bind (h1.linkAt hp) fun k' hk' => ih h1 hk'.2.2
    · exact Yields.bind (h.freeName hk.2.1) fun m1 h1 => Yields.bind (h1.linkAt hp) fun k' hk' => ih h1 hk'.2.2

theorem Safe.freeNames (h : Safe n m0 m) {l : MemPtr} (hl : l.Far n) : Yields (m.freeNames l) (Safe n m0) := by
  unfold Store.freeNames
  refine Yields.any fun _ => Yields.ite (fun _ => Yields.ok h) fun _ => Yields.bind (h.listAt hl) fun c hc => Yields.bind (h.put hl ⟨hc.1, far_null⟩) fun m1 h1 =>
    Yields.bind (Safe.freeNamesBack _ h1 hc.2) fun m2 h2 => Yields.any fun _ => Yields.ite (fun _ => ?_) fun _ => ?_
  · exact Yields.bind (Yields.ok h2) fun m3 h3 => Yields.bind (h3.put hl ⟨far_null, far_null⟩) fun m4 h4 => h4.free hl
  · exact Yields.bind (h2.freeName hc.1) fun m3 h3 => Yields.bind (h3.put hl ⟨far_null, far_null⟩) fun m4 h4 => h4.free hl

theorem Safe.freeLists (h : Safe n m0 m) {a : MemPtr} (ha : a.Far n) (k : Nat) : Yields (m.freeLists a k) (Safe n m0) := by
  unfold Store.freeLists
  exact Yields.bind (Yields.loop _ h fun i m' h' => Yields.bind (h'.ptr ha i) fun l hl => h'.freeNames hl) fun m' h' => h'.free ha

theorem Safe.newSymbols (header : Bool) (line : List Char) {b a : MemPtr} (ha : a.Far n) (k i : Nat) {m : FileMemory} (h : Safe n m0 m) :
    Yields (newSymbols header line b a k i m) (fun r => Safe n m0 r.2) := by
  induction k generalizing i m with
  | zero => exact Yields.ok h
  | succ k ih =>
    rw [Store.newSymbols]
    refine Yields.ite (fun _ => Yields.any fun _ => Yields.any fun w => ?_) fun _ => ?_
    · obtain ⟨h1, f1⟩ := h.alloc (x := .text w) trivial
      exact Yields.bind (h1.setPtr ha f1 i) fun m2 h2 => Yields.ite (fun _ => Yields.ok h2) fun _ => ih (i + 1) h2
    · obtain ⟨h1, f1⟩ := h.alloc (x := .text []) trivial
      exact Yields.bind (h1.setPtr ha f1 i) fun m2 h2 => Yields.ite (fun _ => Yields.ok h2) fun _ => Yields.ub

theorem Safe.setSymbols (h : Safe n m0 m) (line : List Char) (b : MemPtr) (k : Nat) : Yields (m.setSymbols (.block n) line b k) (fun r => Safe n m0 r.2) := by
  unfold Store.setSymbols
  refine Yields.bind h.cell fun c hc => ?_
  obtain ⟨h1, f1⟩ := h.alloc (x := .pointers (List.replicate k .null)) (far_nulls _)
  exact Yields.bind (h1.putFile ⟨hc.1, f1, hc.2.2.1, hc.2.2.2⟩) fun m2 h2 => Yields.ite (fun _ => Yields.ok h2) fun _ => Safe.newSymbols _ _ f1 _ _ h2

theorem Safe.addNames {names : MemPtr} (hn : names.Far n) (line : List Char) (b : MemPtr) (k i : Nat) {m : FileMemory} (h : Safe n m0 m) :
    Yields (addNames names line b k i m) (fun r => Safe n m0 r.2) := by
  induction k generalizing i m with
  | zero => exact Yields.ok h
  | succ k ih =>
    rw [Store.addNames]
    refine Yields.any fun _ => Yields.any fun w => ?_
    obtain ⟨h1, f1⟩ := h.alloc (x := .text w) trivial
    refine Yields.ite (fun _ => Yields.ok h1) fun _ => Yields.ite (fun _ => Yields.bind (h1.free f1) fun m2 h2 => ih _ h2) fun _ => ?_
    refine Yields.bind (h1.ptr hn i) fun l hl => Yields.any fun _ => Yields.ite (fun _ => Yields.bind (h1.free f1) fun m2 h2 => ih _ h2) fun _ => ?_
    exact Yields.bind (h1.prepend hl f1) fun r hr => Yields.ite (fun _ => ih _ hr) fun _ => Yields.bind (hr.free f1) fun m2 h2 => Yields.ok h2

theorem Safe.newLists (h : Safe n m0 m) {a : MemPtr} (ha : a.Far n) (k : Nat) : Yields (m.newLists a k) (Safe n m0) := by
  unfold Store.newLists
  refine Yields.loop _ h fun i m' h' => ?_
  obtain ⟨h1, f1⟩ := h'.alloc (x := .list { length := 0, first := .null, last := .null }) ⟨far_null, far_null⟩
  exact h1.setPtr ha f1 i

theorem Safe.headerLine (h : Safe n m0 m) (line : List Char) {b : MemPtr} (hb : b.Far n) (k : Nat) :
    Yields (m.headerLine (.block n) line b k) (fun r => Safe n m0 r.2 ∧ ∀ s, r.1 = some s → s.Far n) := by
  unfold Store.headerLine
  have none' : ∀ m', Safe n m0 m' → Yields (do
      let m ← m'.free b
      ok (none, m)) (fun r : Option MemPtr × FileMemory => Safe n m0 r.2 ∧ ∀ s, r.1 = some s → s.Far n) := fun m' h' =>
    Yields.bind (h'.free hb) fun m2 h2 => Yields.ok ⟨h2, fun s e => by cases e⟩
  refine Yields.bind (h.setSymbols line b k) fun r hr => Yields.ite (fun _ => none' _ hr) fun _ => Yields.bind hr.cell fun c hc => ?_
  obtain ⟨h1, f1⟩ := hr.alloc (x := .pointers (List.replicate c.nodes .null)) (far_nulls _)
  refine Yields.ite (fun _ => none' _ h1) fun _ => Yields.bind (h1.newLists f1 _) fun m2 h2 => ?_
  obtain ⟨h3, f3⟩ := h2.alloc (x := .ints (List.replicate c.nodes 0)) trivial
  refine Yields.bind (h3.putFile ⟨hc.1, hc.2.1, f3, hc.2.2.2⟩) fun m4 h4 => Yields.ite (fun _ => Yields.bind (h4.freeLists f1 _) fun m5 h5 => none' _ h5) fun _ => ?_
  obtain ⟨h5, f5⟩ := h4.alloc (x := .pointers (List.replicate c.nodes .null)) (far_nulls _)
  refine Yields.bind (h5.putFile ⟨hc.1, hc.2.1, f3, f5⟩) fun m6 h6 => Yields.ite (fun _ => Yields.bind (h6.freeLists f1 _) fun m7 h7 => none' _ h7) fun _ => ?_
  exact Yields.bind (h6.free hb) fun m7 h7 => Yields.ok ⟨h7, fun s e => by cases e; exact f1⟩

theorem Safe.dataLine (h : Safe n m0 m) (ts : Nat) {names : MemPtr} (hn : names.Far n) (line : List Char) {b : MemPtr} (hb : b.Far n) (k : Nat) :
    Yields (m.dataLine (.block n) ts names line b k) (fun r => Safe n m0 r.2) := by
  unfold Store.dataLine
  refine Yields.bind h.cell fun c hc => Yields.any fun _ => Yields.any fun _ => Yields.bind (h.setInt hc.1 _ _) fun m1 h1 => ?_
  have rest : ∀ r : Bool × FileMemory, Safe n m0 r.2 → Yields (if r.1 = true then do
        let m ← r.2.free b
        ok (true, m)
      else do
        let m ← r.2.freeLists names c.nodes
        let m ← m.free b
        ok (false, m)) (fun r => Safe n m0 r.2) := fun r hr =>
    Yields.ite (fun _ => Yields.bind (hr.free hb) fun m2 h2 => Yields.ok h2) fun _ => Yields.bind (hr.freeLists hn _) fun m2 h2 => Yields.bind (h2.free hb) fun m3 h3 => Yields.ok h3
  exact Yields.ite (fun _ => Yields.bind (Safe.addNames hn line b _ 0 h1) rest) fun _ => Yields.bind (Q := fun r : Bool × FileMemory => Safe n m0 r.2) (Yields.ok h1) rest

theorem Safe.line (h : Safe n m0 m) (sep : Char) (line : List Char) (t : FileRun) (ht : t.names.Far n) :
    Yields (m.lineInMemory (.block n) sep line t) (fun r => Safe n m0 r.2 ∧ ∀ t', r.1 = some t' → t'.names.Far n) := by
  unfold lineInMemory
  refine Yields.any fun k => Yields.ite (fun _ => Yields.ok ⟨h, fun t' e => by cases e; exact ht⟩) fun _ => Yields.any fun bounds => ?_
  cases bounds with
  | none => exact Yields.ok ⟨h, fun t' e => by cases e⟩
  | some bounds =>
    obtain ⟨h1, f1⟩ := h.alloc (x := .ints bounds) trivial
    refine Yields.ite (fun _ => Yields.ok ⟨h1, fun t' e => by cases e⟩) fun _ => Yields.ite (fun _ => ?_) fun _ => ?_
    · refine Yields.bind (h1.headerLine line f1 k) fun r hr => ?_
      obtain ⟨s, m'⟩ := r
      cases s with
      | none => exact Yields.ok ⟨hr.1, fun t' e => by cases e⟩
      | some s => exact Yields.ok ⟨hr.1, fun t' e => by cases e; exact hr.2 s rfl⟩
    · refine Yields.bind (h1.dataLine _ ht line f1 k) fun r hr => Yields.ite (fun _ => Yields.ok ⟨hr, fun t' e => by cases e; exact ht⟩) fun _ => Yields.ok ⟨hr, fun t' e => by cases e⟩

theorem Safe.lines (sep : Char) (lines : List (List Char)) (t : FileRun) (ht : t.names.Far n) {m : FileMemory} (h : Safe n m0 m) :
    Yields (linesInMemory (.block n) sep lines t m) (fun r => Safe n m0 r.2 ∧ ∀ t', r.1 = some t' → t'.names.Far n) := by
  induction lines generalizing t m with
  | nil => exact Yields.ok ⟨h, fun t' e => by cases e; exact ht⟩
  | cons l lines ih =>
    rw [linesInMemory]
    refine Yields.bind (h.line sep l t ht) fun r hr => ?_
    obtain ⟨t', m'⟩ := r
    cases t' with
    | none => exact Yields.ok ⟨hr.1, fun t' e => by cases e⟩
    | some t' => exact ih t' (hr.2 t' rfl) hr.1

theorem Safe.storeNames (h : Safe n m0 m) {names : MemPtr} (hn : names.Far n) (i : Nat) : Yields (m.storeNames (.block n) names i) (Safe n m0) := by
  unfold Store.storeNames
  exact Yields.bind h.cell fun c hc => Yields.bind (h.ptr hn i) fun l hl => Yields.any fun _ => Yields.bind (h.setInt hc.2.2.1 _ _) fun m1 h1 => Yields.bind (h1.toArray hl) fun r hr =>
    Yields.bind (hr.1.setPtr hc.2.2.2 hr.2 i) fun m2 h2 => Yields.bind (h2.emptyNames hl) fun m3 h3 => h3.free hl

/-- The analysis, whichever allocations fail. -/
theorem Safe.analyse (h : Safe n m0 m) (sep : Char) (lines : List (List Char)) : Yields (m.analyseData (.block n) sep lines) (fun r => Safe n m0 r.2) := by
  unfold analyseData
  refine Yields.bind h.cell fun c hc => Yields.ite (fun _ => Yields.ok h) fun _ => Yields.any fun rows => ?_
  obtain ⟨h1, f1⟩ := h.alloc (x := .ints (List.replicate rows.1 0)) trivial
  refine Yields.bind (h1.putFile ⟨f1, hc.2⟩) fun m2 h2 => Yields.ite (fun _ => Yields.ok h2) fun _ => Yields.bind (Safe.lines sep lines _ far_null h2) fun r hr => ?_
  obtain ⟨t, m3⟩ := r
  cases t with
  | none => exact Yields.ok hr.1
  | some t =>
    refine Yields.any fun c => Yields.bind (Yields.loop _ hr.1 fun i m' h' => h'.storeNames (hr.2 t rfl) i) fun m4 h4 => Yields.bind (h4.free (hr.2 t rfl)) fun m5 h5 => Yields.ok h5

/-- the file and its name are in use -/
theorem Safe.count (h : Safe m0.next m0 m) : m0.inUse + 2 ≤ m.inUse := by
  obtain ⟨k, hk⟩ := Nat.exists_eq_add_of_le h.next
  obtain ⟨c, hc⟩ := h.file
  obtain ⟨w, hw⟩ := h.name
  unfold Store.inUse
  rw [hk, List.range_add, List.filter_append, List.length_append, List.range_succ, List.range_succ, List.filter_append, List.filter_append, List.length_append, List.length_append]
  have e : (List.range m0.next).filter (fun b => (m.blocks b).isSome) = (List.range m0.next).filter (fun b => (m0.blocks b).isSome) := by
    apply List.filter_congr
    intro b hb
    rw [h.old b (List.mem_range.1 hb)]
  rw [e]
  simp only [List.filter_cons, hc, hw, Option.isSome_some, if_true, List.filter_nil, List.length_cons, List.length_nil]
  omega

end Nip
