import Verif.DataMemory
import Verif.SeriesMemoryRead
import Verif.DataFileLemmas

/-! # Lemmas about the memory of data files: texts, arrays and lists of names -/

namespace Nip

open Res Spec

namespace Store

theorem fileCellAt_eq {m : FileMemory} {a : Nat} {c : FileCell} (h : m.blocks a = some (.file c)) : m.fileCellAt (.block a) = ok c := by
  unfold fileCellAt Store.get
  simp only [h, ok_bind]

theorem nameTextAt_eq {m : FileMemory} {a : Nat} {c : List Char} (h : m.blocks a = some (.text c)) : m.nameTextAt (.block a) = ok c := by
  unfold nameTextAt Store.get
  simp only [h, ok_bind]

theorem fileIntsAt_eq {m : FileMemory} {a : Nat} {c : List Nat} (h : m.blocks a = some (.ints c)) : m.fileIntsAt (.block a) = ok c := by
  unfold fileIntsAt Store.get
  simp only [h, ok_bind]

theorem filePtrsAt_eq {m : FileMemory} {a : Nat} {c : List MemPtr} (h : m.blocks a = some (.pointers c)) : m.filePtrsAt (.block a) = ok c := by
  unfold filePtrsAt Store.get
  simp only [h, ok_bind]

theorem nameListAt_eq {m : FileMemory} {a : Nat} {c : NameHead} (h : m.blocks a = some (.list c)) : m.nameListAt (.block a) = ok c := by
  unfold nameListAt Store.get
  simp only [h, ok_bind]

theorem nameLinkAt_eq {m : FileMemory} {a : Nat} {c : NameLink} (h : m.blocks a = some (.link c)) : m.nameLinkAt (.block a) = ok c := by
  unfold nameLinkAt Store.get
  simp only [h, ok_bind]

theorem filePtrAt_eq {m : FileMemory} {a i : Nat} {l : List MemPtr} (h : m.blocks a = some (.pointers l)) (hi : i < l.length) : m.filePtrAt (.block a) i = ok l[i] := by
  unfold filePtrAt
  rw [filePtrsAt_eq h, ok_bind, rd_lt hi]

theorem Within.setFilePtr {m : FileMemory} {M : Multiset Nat} {a i : Nat} {l : List MemPtr} (h : m.Within ({a} + M)) (e : m.blocks a = some (.pointers l)) (hi : i < l.length)
    (p : MemPtr) : ∃ m', m.setFilePtr (.block a) i p = ok m' ∧ m'.Within ({a} + M) ∧ m'.blocks a = some (.pointers (l.set i p)) ∧ m.Keeps m' M ∧ m'.next = m.next := by
  obtain ⟨m', a1, w1, b1, k1, n1⟩ := h.write (.pointers (l.set i p))
  refine ⟨m', ?_, w1, b1, k1, n1⟩
  unfold Store.setFilePtr
  rw [filePtrsAt_eq e, ok_bind, wr_lt hi, ok_bind, a1]

theorem Within.setFileInt {m : FileMemory} {M : Multiset Nat} {a i : Nat} {l : List Nat} (h : m.Within ({a} + M)) (e : m.blocks a = some (.ints l)) (hi : i < l.length)
    (x : Nat) : ∃ m', m.setFileInt (.block a) i x = ok m' ∧ m'.Within ({a} + M) ∧ m'.blocks a = some (.ints (l.set i x)) ∧ m.Keeps m' M ∧ m'.next = m.next := by
  obtain ⟨m', a1, w1, b1, k1, n1⟩ := h.write (.ints (l.set i x))
  refine ⟨m', ?_, w1, b1, k1, n1⟩
  unfold Store.setFileInt
  rw [fileIntsAt_eq e, ok_bind, wr_lt hi, ok_bind, a1]

/-- `malloc` and `calloc` when there is memory -/
theorem Within.given {B : Type} {m : Store B} {M : Multiset Nat} (h : m.Within M) (hf : m.fails m.next = false) (b : B) :
    ∃ m', m.alloc b = (.block m.next, m') ∧ m'.Within ({m.next} + M) ∧ m'.blocks m.next = some b ∧ m.Keeps m' M ∧ m'.next = m.next + 1 := by
  rcases h.any b with ⟨m1, _, f1, _⟩ | ⟨m1, a1, _, w1, b1, k1, n1⟩
  · rw [hf] at f1; cases f1
  · exact ⟨m1, a1, w1, b1, k1, n1⟩

end Store

open Store

theorem mem_ptrBlocks {l : List MemPtr} {a : Nat} (h : MemPtr.block a ∈ l) : a ∈ ptrBlocks l := by
  obtain ⟨l1, l2, rfl⟩ := List.append_of_mem h
  rw [ptrBlocks_append, ptrBlocks_cons]
  simp [MemPtr.blocks]

/-- The pointers of an array are freed. -/
theorem freeFilePtrs_spec {m : FileMemory} {M : Multiset Nat} {a : Nat} {l : List MemPtr} (h : m.Within (ptrBlocks l + ({a} + M)))
    (e : m.blocks a = some (.pointers l)) (hj : ∀ q ∈ l, q ≠ .junk) :
    ∃ m', m.freeFilePtrs (.block a) l.length = ok m' ∧ m'.Within ({a} + M) ∧ m.Keeps m' ({a} + M) ∧ m'.next = m.next := by
  obtain ⟨m', e1, e2, e3, e4⟩ := loop_inv (n := l.length) (f := fun i (m : FileMemory) => do
      let p ← m.filePtrAt (.block a) i
      m.free p) (s := m)
    (fun i m' => m'.Within (ptrBlocks (l.drop i) + ({a} + M)) ∧ m.Keeps m' ({a} + M) ∧ m'.next = m.next) ⟨by simpa using h, Keeps.refl _ _, rfl⟩ (by
      rintro i hi m1 ⟨w1, k1, n1⟩
      rw [List.drop_eq_getElem_cons hi, ptrBlocks_cons, add_assoc] at w1
      obtain ⟨m2, a2, w2, k2, n2⟩ := w1.release (hj _ (List.getElem_mem hi))
      refine ⟨m2, ?_, w2, k1.then k2 (Multiset.le_add_left _ _), n2.trans n1⟩
      have ea : m1.blocks a = some (.pointers l) := by rw [k1.same a (by simp), e]
      simp only [filePtrAt_eq ea hi, ok_bind, a2])
  refine ⟨m', e1, ?_, e3, e4⟩
  simpa [ptrBlocks_nil] using e2

/-! ### lists of names -/

/-- an entry of a list: its address, that of its text, and the text -/
structure NLink where
  addr : Nat
  textAt : Nat
  text : List Char

/-- the pointers to the entries -/
def linkPtrs (ls : List NLink) : List MemPtr := ls.map (fun k => .block k.addr)

/-- the pointers to the texts -/
def textPtrs (ls : List NLink) : List MemPtr := ls.map (fun k => .block k.textAt)

/-- the pointer to entry `i` -/
def nlinkPtr (ls : List NLink) (i : Nat) : MemPtr :=
  match ls[i]? with
  | some k => .block k.addr
  | none => .null

/-- the pointer to the entry before entry `i` -/
def nlinkPrev (ls : List NLink) : Nat → MemPtr
  | 0 => .null
  | i + 1 => nlinkPtr ls i

theorem nlinkPtr_lt {ls : List NLink} {i : Nat} (h : i < ls.length) : nlinkPtr ls i = .block ls[i].addr := by
  unfold nlinkPtr
  rw [List.getElem?_eq_getElem h]

theorem nlinkPtr_ge {ls : List NLink} {i : Nat} (h : ls.length ≤ i) : nlinkPtr ls i = .null := by
  unfold nlinkPtr
  rw [List.getElem?_eq_none h]

theorem nlinkPtr_junk (ls : List NLink) (i : Nat) : nlinkPtr ls i ≠ .junk := by
  unfold nlinkPtr
  split <;> simp

/-- what is in entry `i` -/
def nameLinkOf (ls : List NLink) (i : Nat) (k : NLink) : NameLink := { data := .block k.textAt, fwd := nlinkPtr ls (i + 1), bwd := nlinkPrev ls i }

/-- a list of names: its address and its entries -/
structure NCol where
  addr : Nat
  links : List NLink

/-- the names -/
def NCol.names (c : NCol) : List (List Char) := c.links.map NLink.text

/-- its blocks -/
def NCol.blocks (c : NCol) : Multiset Nat := {c.addr} + (ptrBlocks (linkPtrs c.links) + ptrBlocks (textPtrs c.links))

/-- the list is in memory -/
structure NCol.Good (c : NCol) (m : FileMemory) : Prop where
  head : m.blocks c.addr = some (.list { length := c.links.length, first := nlinkPtr c.links 0, last := nlinkPrev c.links c.links.length })
  link : ∀ j (hj : j < c.links.length), m.blocks c.links[j].addr = some (.link (nameLinkOf c.links j c.links[j]))
  text : ∀ k ∈ c.links, m.blocks k.textAt = some (.text k.text)

theorem mem_linkPtrs {ls : List NLink} {k : NLink} (h : k ∈ ls) : k.addr ∈ ptrBlocks (linkPtrs ls) := mem_ptrBlocks (List.mem_map_of_mem h)

theorem mem_textPtrs {ls : List NLink} {k : NLink} (h : k ∈ ls) : k.textAt ∈ ptrBlocks (textPtrs ls) := mem_ptrBlocks (List.mem_map_of_mem h)

theorem NCol.Good.keep {c : NCol} {m m' : FileMemory} (h : c.Good m) (hs : m.SameOn m' c.blocks) : c.Good m' := by
  refine ⟨?_, fun j hj => ?_, fun k hk => ?_⟩
  · rw [hs _ (by simp [NCol.blocks])]; exact h.head
  · rw [hs _ (Multiset.mem_add.2 (Or.inr (Multiset.mem_add.2 (Or.inl (mem_linkPtrs (List.getElem_mem hj))))))]; exact h.link j hj
  · rw [hs _ (Multiset.mem_add.2 (Or.inr (Multiset.mem_add.2 (Or.inr (mem_textPtrs hk)))))]; exact h.text k hk

theorem isNull_block (a : Nat) : (MemPtr.block a).isNull = ok false := rfl

theorem isNull_null : MemPtr.null.isNull = ok true := rfl

/-- An entry is added at the start of a list. -/
theorem prependName_spec {m : FileMemory} {M : Multiset Nat} {c : NCol} {t : Nat} {w : List Char} (h : m.Within ({t} + (c.blocks + M))) (hg : c.Good m)
    (ht : m.blocks t = some (.text w)) (hf : m.fails m.next = false) :
    ∃ m', m.prependName (.block c.addr) (.block t) = ok (true, m') ∧ m'.Within (NCol.blocks ⟨c.addr, ⟨m.next, t, w⟩ :: c.links⟩ + M) ∧
      NCol.Good ⟨c.addr, ⟨m.next, t, w⟩ :: c.links⟩ m' ∧ m.Keeps m' M ∧ m'.next = m.next + 1 := by
  obtain ⟨m1, a1, w1, b1, k1, n1⟩ := h.given hf (.link { data := .junk, fwd := .junk, bwd := .junk })
  obtain ⟨m2, a2, w2, b2, k2, n2⟩ := w1.write (.link { data := .block t, fwd := nlinkPtr c.links 0, bwd := .null })
  have k12 : m.Keeps m2 ({t} + (c.blocks + M)) := k1.trans k2
  have g2 : c.Good m2 := hg.keep (k12.mono ((Multiset.le_add_right c.blocks M).trans (Multiset.le_add_left _ _))).same
  have hh1 : m1.blocks c.addr = some (.list { length := c.links.length, first := nlinkPtr c.links 0, last := nlinkPrev c.links c.links.length }) := by
    rw [k1.same _ (by simp [NCol.blocks])]; exact hg.head
  have ht2 : m2.blocks t = some (.text w) := by rw [k12.same _ (by simp)]; exact ht
  obtain ⟨addr, links⟩ := c
  cases links with
  | nil =>
    obtain ⟨m4, a4, w4, b4, k4, n4⟩ := Within.write (a := addr) (M := {m.next} + ({t} + M)) (m := m2)
      (w2.as (by simp only [NCol.blocks, linkPtrs, textPtrs, List.map_nil, ptrBlocks_nil]; abel)) (.list { length := 1, first := .block m.next, last := .block m.next })
    refine ⟨m4, ?_, ?_, ⟨by rw [b4]; rfl, ?_, ?_⟩, ?_, by omega⟩
    · unfold prependName
      rw [isNull_block, isNull_block, a1]
      simp only [ok_bind, Bool.or_self, Bool.false_eq_true, if_false]
      rw [if_neg (by simp), nameListAt_eq hh1, ok_bind]
      simp only [a2, ok_bind, nlinkPrev, List.length_nil, isNull_null, if_true]
      rw [a4]; rfl
    · exact w4.as (by simp only [NCol.blocks, linkPtrs, textPtrs, List.map_cons, List.map_nil, ptrBlocks_single, MemPtr.blocks]; abel)
    · intro j hj
      obtain rfl : j = 0 := by simp at hj; exact hj
      simp only [List.getElem_cons_zero]
      rw [k4.same _ (by simp), b2]
      rfl
    · intro k hk
      obtain rfl := List.mem_singleton.1 hk
      change m4.blocks t = _
      rw [k4.same _ (by simp)]; exact ht2
    · exact (k12.mono ((Multiset.le_add_left M _).trans (Multiset.le_add_left _ _))).then k4 ((Multiset.le_add_left M _).trans (Multiset.le_add_left _ _))
  | cons x ls =>
    have hx : m2.blocks x.addr = some (.link (nameLinkOf (x :: ls) 0 x)) := g2.link 0 (by simp)
    obtain ⟨m3, a3, w3, b3, k3, n3⟩ := Within.write (a := x.addr) (M := {m.next} + ({t} + ({addr} + (ptrBlocks (linkPtrs ls) + (ptrBlocks (textPtrs (x :: ls)) + M))))) (m := m2)
      (w2.as (by simp only [NCol.blocks, linkPtrs, List.map_cons, ptrBlocks_cons, MemPtr.blocks]; abel)) (.link { nameLinkOf (x :: ls) 0 x with bwd := .block m.next })
    obtain ⟨m4, a4, w4, b4, k4, n4⟩ := Within.write (a := addr) (M := {m.next} + ({t} + ({x.addr} + (ptrBlocks (linkPtrs ls) + (ptrBlocks (textPtrs (x :: ls)) + M))))) (m := m3)
      (w3.as (by abel)) (.list { length := (x :: ls).length + 1, first := .block m.next, last := nlinkPrev (x :: ls) (x :: ls).length })
    have hlast : nlinkPrev (x :: ls) (x :: ls).length = .block (x :: ls)[ls.length].addr := nlinkPtr_lt (by simp)
    refine ⟨m4, ?_, ?_, ⟨?_, ?_, ?_⟩, ?_, by omega⟩
    · unfold prependName
      rw [isNull_block, isNull_block, a1]
      simp only [ok_bind, Bool.or_self, Bool.false_eq_true, if_false]
      rw [if_neg (by simp), nameListAt_eq hh1, ok_bind]
      simp only [a2, ok_bind]
      rw [hlast, isNull_block]
      simp only [ok_bind, Bool.false_eq_true, if_false]
      have h0 : nlinkPtr (x :: ls) 0 = .block x.addr := rfl
      rw [h0, nameLinkAt_eq hx, ok_bind, a3, ok_bind, ← hlast, a4]
      rfl
    · exact w4.as (by simp only [NCol.blocks, linkPtrs, textPtrs, List.map_cons, ptrBlocks_cons, MemPtr.blocks]; abel)
    · rw [b4]; rfl
    · intro j hj
      match j, hj with
      | 0, _ =>
        change m4.blocks m.next = _
        rw [k4.same _ (by simp), k3.same _ (by simp), b2]
        rfl
      | 1, _ =>
        change m4.blocks x.addr = _
        rw [k4.same _ (by simp), b3]
        rfl
      | j + 2, hj =>
        have hj' : j < ls.length := by simp at hj; exact hj
        have hm : ls[j].addr ∈ ptrBlocks (linkPtrs ls) := mem_linkPtrs (List.getElem_mem hj')
        change m4.blocks ls[j].addr = _
        rw [k4.same _ (by simp [hm]), k3.same _ (by simp [hm])]
        exact g2.link (j + 1) (by simp; exact hj')
    · intro k hk
      rcases List.mem_cons.1 hk with rfl | hk
      · change m4.blocks t = _
        rw [k4.same _ (by simp), k3.same _ (by simp)]; exact ht2
      · have hm : k.textAt ∈ ptrBlocks (textPtrs (x :: ls)) := mem_textPtrs hk
        rw [k4.same _ (by simp [hm]), k3.same _ (by simp [hm])]
        exact g2.text k hk
    · refine ((k12.mono ((Multiset.le_add_left M _).trans (Multiset.le_add_left _ _))).then k3 ?_).then k4 ?_ <;>
      · rw [← add_assoc, ← add_assoc, ← add_assoc, ← add_assoc]
        exact Multiset.le_add_left _ _

/-- A name is searched from entry `i` on. -/
theorem findName_spec {m : FileMemory} {c : NCol} (hg : c.Good m) (s : List Char) (i : Nat) (hi : i ≤ c.links.length) :
    m.findName s (c.links.length - i + 1) (nlinkPtr c.links i) = ok ((c.names.drop i).any (fun w => s == w)) := by
  induction hk : c.links.length - i generalizing i with
  | zero =>
    rw [nlinkPtr_ge (by omega), List.drop_eq_nil_of_le (by unfold NCol.names; rw [List.length_map]; omega)]
    rfl
  | succ k ih =>
    have hlt : i < c.links.length := by omega
    rw [nlinkPtr_lt hlt, findName, isNull_block]
    simp only [ok_bind, Bool.false_eq_true, if_false]
    rw [nameLinkAt_eq (hg.link i hlt), ok_bind]
    have ht := nameTextAt_eq (hg.text _ (List.getElem_mem hlt))
    have e : (nameLinkOf c.links i c.links[i]).data = .block c.links[i].textAt := rfl
    rw [e, ht, ok_bind]
    have hd : c.names.drop i = c.links[i].text :: c.names.drop (i + 1) := by
      rw [List.drop_eq_getElem_cons (by unfold NCol.names; rw [List.length_map]; exact hlt)]
      simp [NCol.names]
    rw [hd, List.any_cons]
    by_cases hs : s = c.links[i].text
    · rw [if_pos hs]; simp [hs]
    · rw [if_neg hs]
      have := ih (i + 1) (by omega) (by omega)
      have e2 : (nameLinkOf c.links i c.links[i]).fwd = nlinkPtr c.links (i + 1) := rfl
      rw [e2, this]
      simp [hs]

theorem hasName_spec {m : FileMemory} {c : NCol} (hg : c.Good m) (s : List Char) : m.hasName (.block c.addr) s = ok (c.names.any (fun w => s == w)) := by
  unfold hasName
  rw [isNull_block]
  simp only [ok_bind, Bool.false_eq_true, if_false]
  rw [nameListAt_eq hg.head, ok_bind]
  have := findName_spec hg s 0 (by omega)
  simpa using this

/-- The texts of a list go into a new array. -/
theorem namesToArray_spec {m : FileMemory} {M : Multiset Nat} {c : NCol} (h : m.Within (c.blocks + M)) (hg : c.Good m) (hf : ∀ k, m.fails k = false) :
    (c.links = [] ∧ m.namesToArray (.block c.addr) = ok (.null, m)) ∨
    (c.links ≠ [] ∧ ∃ m', m.namesToArray (.block c.addr) = ok (.block m.next, m') ∧ m'.Within ({m.next} + (c.blocks + M)) ∧ m'.blocks m.next = some (.pointers (textPtrs c.links)) ∧
      m.Keeps m' (c.blocks + M) ∧ m'.next = m.next + 1) := by
  by_cases he : c.links = []
  · refine Or.inl ⟨he, ?_⟩
    unfold namesToArray
    rw [isNull_block]
    simp only [ok_bind, Bool.false_eq_true, if_false]
    rw [nameListAt_eq hg.head, ok_bind]
    simp [he]
  · refine Or.inr ⟨he, ?_⟩
    have hn : c.links.length ≠ 0 := fun e => he (List.length_eq_zero_iff.1 e)
    obtain ⟨m1, a1, w1, b1, k1, n1⟩ := h.given (hf _) (.pointers (List.replicate c.links.length .null))
    have g1 : c.Good m1 := hg.keep (k1.mono (Multiset.le_add_right _ _)).same
    obtain ⟨st, e1, e2, e3, e4, e5, e6⟩ := loop_inv (n := c.links.length) (f := fun i (st : MemPtr × FileMemory) => do
        let k ← st.2.nameLinkAt st.1
        let m ← st.2.setFilePtr (.block m.next) i k.data
        ok (k.fwd, m)) (s := (nlinkPtr c.links 0, m1))
      (fun i st => st.1 = nlinkPtr c.links i ∧ st.2.Within ({m.next} + (c.blocks + M)) ∧
        st.2.blocks m.next = some (.pointers (textPtrs (c.links.take i) ++ List.replicate (c.links.length - i) .null)) ∧ m1.Keeps st.2 (c.blocks + M) ∧ st.2.next = m1.next)
      ⟨rfl, w1, by simpa [textPtrs] using b1, Keeps.refl _ _, rfl⟩ (by
        rintro i hi ⟨p, m2⟩ ⟨rfl, w2, b2, k2, n2⟩
        simp only at w2 b2 k2 n2 ⊢
        have g2 : c.Good m2 := g1.keep (k2.mono (Multiset.le_add_right _ _)).same
        have hlen : (textPtrs (c.links.take i)).length = i := by unfold textPtrs; rw [List.length_map, List.length_take]; omega
        obtain ⟨m3, a3, w3, b3, k3, n3⟩ := w2.setFilePtr b2 (i := i) (by rw [List.length_append, hlen, List.length_replicate]; omega) (.block c.links[i].textAt)
        refine ⟨(nlinkPtr c.links (i + 1), m3), ?_, rfl, w3, ?_, k2.trans k3, n3.trans n2⟩
        · rw [nlinkPtr_lt hi, nameLinkAt_eq (g2.link i hi), ok_bind]
          have e : (nameLinkOf c.links i c.links[i]).data = .block c.links[i].textAt := rfl
          rw [e, a3, ok_bind]
          rfl
        · simp only
          rw [b3]
          obtain ⟨r, hr⟩ : ∃ r, c.links.length - i = r + 1 := ⟨c.links.length - i - 1, by omega⟩
          rw [hr, show c.links.length - (i + 1) = r by omega]
          have := set_replicate_null (textPtrs (c.links.take i)) r (.block c.links[i].textAt)
          rw [hlen] at this
          have ht : textPtrs (c.links.take (i + 1)) = textPtrs (c.links.take i) ++ [.block c.links[i].textAt] := by
            rw [List.take_succ_eq_append_getElem hi]
            unfold textPtrs
            rw [List.map_append]
            rfl
          rw [this, ht])
    refine ⟨st.2, ?_, e3, ?_, k1.trans e5, by omega⟩
    · unfold namesToArray
      rw [isNull_block]
      simp only [ok_bind, Bool.false_eq_true, if_false]
      rw [nameListAt_eq hg.head, ok_bind, a1]
      simp only [hn, if_false]
      rw [if_neg (by simp), e1]
      rfl
    · rw [e4, List.take_length]
      simp

theorem take_links {ls : List NLink} (i : Nat) : ptrBlocks (linkPtrs (ls.take (i + 1))) = (nlinkPtr ls i).blocks + ptrBlocks (linkPtrs (ls.take i)) := by
  by_cases h : i < ls.length
  · rw [List.take_succ_eq_append_getElem h, nlinkPtr_lt h]
    unfold linkPtrs
    rw [List.map_append, ptrBlocks_append, add_comm]
    simp [ptrBlocks_single]
  · rw [nlinkPtr_ge (by omega), List.take_of_length_le (by omega), List.take_of_length_le (by omega)]
    simp [MemPtr.blocks]

theorem mem_take_links {ls : List NLink} {i j : Nat} (hj : j < ls.length) (hij : j < i) : ls[j].addr ∈ ptrBlocks (linkPtrs (ls.take i)) := by
  refine mem_linkPtrs ?_
  rw [List.mem_take_iff_getElem]
  exact ⟨j, by omega, rfl⟩

/-- The entries after the first one are freed from the last one on. -/
theorem emptyBack_spec {ls : List NLink} (i : Nat) (hi : i < ls.length) {m : FileMemory} {M : Multiset Nat} (h : m.Within (ptrBlocks (linkPtrs (ls.take (i + 2))) + M))
    (hc : ∀ j (hj : j < ls.length), j < i + 2 → m.blocks ls[j].addr = some (.link (nameLinkOf ls j ls[j]))) :
    ∃ m', m.emptyBack (i + 2) (.block ls[i].addr) = ok m' ∧ m'.Within (ptrBlocks (linkPtrs (ls.take 1)) + M) ∧ m.Keeps m' M ∧ m'.next = m.next := by
  induction i generalizing m with
  | zero =>
    rw [take_links, add_assoc] at h
    obtain ⟨m1, a1, w1, k1, n1⟩ := h.release (nlinkPtr_junk _ _)
    have h0 : m1.blocks ls[0].addr = some (.link (nameLinkOf ls 0 ls[0])) := by
      rw [k1.same _ (Multiset.mem_add.2 (Or.inl (mem_take_links hi (by omega))))]; exact hc 0 hi (by omega)
    refine ⟨m1, ?_, w1, k1.mono (Multiset.le_add_left _ _), n1⟩
    rw [emptyBack, isNull_block]
    simp only [ok_bind, Bool.false_eq_true, if_false]
    have e : (nameLinkOf ls 0 ls[0]).fwd = nlinkPtr ls 1 := rfl
    have e' : (nameLinkOf ls 0 ls[0]).bwd = .null := rfl
    rw [nameLinkAt_eq (hc 0 hi (by omega)), ok_bind, e, a1, ok_bind, nameLinkAt_eq h0, ok_bind, e']
    rfl
  | succ i ih =>
    rw [take_links, add_assoc] at h
    obtain ⟨m1, a1, w1, k1, n1⟩ := h.release (nlinkPtr_junk _ _)
    have hc1 : ∀ j (hj : j < ls.length), j < i + 2 → m1.blocks ls[j].addr = some (.link (nameLinkOf ls j ls[j])) := by
      intro j hj hji
      rw [k1.same _ (Multiset.mem_add.2 (Or.inl (mem_take_links hj hji)))]; exact hc j hj (by omega)
    obtain ⟨m2, a2, w2, k2, n2⟩ := ih (by omega) w1 hc1
    refine ⟨m2, ?_, w2, (k1.mono (Multiset.le_add_left _ _)).trans k2, n2.trans n1⟩
    rw [emptyBack, isNull_block]
    simp only [ok_bind, Bool.false_eq_true, if_false]
    have e : (nameLinkOf ls (i + 1) ls[i + 1]).fwd = nlinkPtr ls (i + 2) := rfl
    have e' : (nameLinkOf ls (i + 1) ls[i + 1]).bwd = .block ls[i].addr := nlinkPtr_lt (by omega)
    rw [nameLinkAt_eq (hc _ hi (by omega)), ok_bind, e, a1, ok_bind, nameLinkAt_eq (hc1 _ hi (by omega)), ok_bind, e', a2]

/-- The entries of a list are freed, the texts are kept; then the list is freed. -/
theorem emptyNames_spec {m : FileMemory} {M : Multiset Nat} {c : NCol} (h : m.Within (c.blocks + M)) (hg : c.Good m) :
    ∃ m' m'', m.emptyNames (.block c.addr) = ok m' ∧ m'.free (.block c.addr) = ok m'' ∧ m''.Within (ptrBlocks (textPtrs c.links) + M) ∧
      m.Keeps m'' (ptrBlocks (textPtrs c.links) + M) ∧ m''.next = m.next := by
  obtain ⟨l, ls⟩ := c
  obtain ⟨m1, a1, w1, b1, k1, n1⟩ := Within.write (a := l) (M := ptrBlocks (linkPtrs ls) + (ptrBlocks (textPtrs ls) + M)) (m := m) (h.as (by unfold NCol.blocks; abel))
    (.list { length := ls.length, first := nlinkPtr ls 0, last := .null })
  have hlink : ∀ j (hj : j < ls.length), m1.blocks ls[j].addr = some (.link (nameLinkOf ls j ls[j])) := by
    intro j hj
    rw [k1.same _ (Multiset.mem_add.2 (Or.inl (mem_linkPtrs (List.getElem_mem hj))))]
    exact hg.link j hj
  have key : ∃ m2, m1.emptyBack (ls.length + 1) (nlinkPrev ls ls.length) = ok m2 ∧ m2.Within (ptrBlocks (linkPtrs (ls.take 1)) + ({l} + (ptrBlocks (textPtrs ls) + M))) ∧
      m1.Keeps m2 ({l} + (ptrBlocks (textPtrs ls) + M)) ∧ m2.next = m1.next := by
    have w1' : m1.Within (ptrBlocks (linkPtrs ls) + ({l} + (ptrBlocks (textPtrs ls) + M))) := w1.as (by abel)
    cases hn : ls.length with
    | zero =>
      have hnil := List.length_eq_zero_iff.1 hn
      subst hnil
      exact ⟨m1, rfl, w1', Keeps.refl _ _, rfl⟩
    | succ n =>
      have := emptyBack_spec (ls := ls) n (by omega) (M := {l} + (ptrBlocks (textPtrs ls) + M)) (m := m1) (by rw [List.take_of_length_le (by omega)]; exact w1') (fun j hj _ => hlink j hj)
      have hp : nlinkPrev ls (n + 1) = .block ls[n].addr := nlinkPtr_lt (by omega)
      rw [hp]
      exact this
  obtain ⟨m2, a2, w2, k2, n2⟩ := key
  rw [take_links, List.take_zero, add_assoc] at w2
  obtain ⟨m3, a3, w3, k3, n3⟩ := w2.release (nlinkPtr_junk _ _)
  have w3' : m3.Within ({l} + (ptrBlocks (textPtrs ls) + M)) := w3.as (by simp [linkPtrs, ptrBlocks_nil])
  obtain ⟨m4, a4, w4, b4, k4, n4⟩ := w3'.write (.list { length := 0, first := .null, last := .null })
  obtain ⟨m5, a5, w5, k5, n5⟩ := Within.release (q := .block l) (by simp) (m := m4) (M := ptrBlocks (textPtrs ls) + M) w4
  refine ⟨m4, m5, ?_, a5, w5, ?_, by omega⟩
  · unfold emptyNames
    rw [isNull_block]
    simp only [ok_bind, Bool.false_eq_true, if_false]
    rw [nameListAt_eq hg.head, ok_bind]
    simp only [a1, a2, a3, ok_bind, a4]
  · have s1 : ptrBlocks (textPtrs ls) + M ≤ {l} + (ptrBlocks (textPtrs ls) + M) := Multiset.le_add_left _ _
    exact (((((k1.mono (Multiset.le_add_left _ _)).then k2 s1).then k3 (s1.trans (Multiset.le_add_left _ _))).trans k4).trans k5)

end Nip
