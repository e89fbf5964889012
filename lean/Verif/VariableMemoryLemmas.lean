import Verif.VariableMemory
import Mathlib.Algebra.BigOperators.Group.Finset.Basic
import Mathlib.Algebra.Order.Group.Multiset
import Mathlib.Data.Multiset.Basic
import Mathlib.Tactic.Abel

/-! # Lemmas about the memory of variables -/

namespace Nip

open Res Spec

/-- the block to which a pointer points -/
def MemPtr.blocks : MemPtr → Multiset Nat
  | .block a => {a}
  | _ => 0

/-- The blocks in use are those of `M`. -/
structure Memory.Within (m : Memory) (M : Multiset Nat) : Prop where
  nodup : M.Nodup
  used : ∀ b, (m.blocks b).isSome = true ↔ b ∈ M
  below : ∀ b ∈ M, b < m.next

/-- nothing has changed in the blocks of `M` -/
def Memory.SameOn (m m' : Memory) (M : Multiset Nat) : Prop := ∀ b ∈ M, m'.blocks b = m.blocks b

theorem Memory.SameOn.trans {m m' m'' : Memory} {M : Multiset Nat} (h : m.SameOn m' M) (h' : m'.SameOn m'' M) : m.SameOn m'' M :=
  fun b hb => (h' b hb).trans (h b hb)

theorem Memory.SameOn.mono {m m' : Memory} {M N : Multiset Nat} (h : m.SameOn m' M) (hs : N ≤ M) : m.SameOn m' N :=
  fun b hb => h b (Multiset.mem_of_le hs hb)

theorem Memory.SameOn.refl (m : Memory) (M : Multiset Nat) : m.SameOn m M := fun _ _ => rfl

theorem Memory.Within.alloc {m : Memory} {M : Multiset Nat} (h : m.Within M) (hf : ∀ k, m.fails k = false) (b : MemBlock) :
    ∃ a m', m.alloc b = (.block a, m') ∧ m'.Within ({a} + M) ∧ m'.blocks a = some b ∧ m.SameOn m' M ∧ m'.fails = m.fails := by
  have hnew : m.next ∉ M := fun hm => lt_irrefl _ (h.below _ hm)
  refine ⟨m.next, { m with blocks := Function.update m.blocks m.next (some b), next := m.next + 1 }, by unfold Memory.alloc; rw [hf]; rfl, ⟨?_, ?_, ?_⟩, ?_, ?_, rfl⟩
  · rw [Multiset.singleton_add]
    exact Multiset.nodup_cons.2 ⟨hnew, h.nodup⟩
  · intro x
    rw [Multiset.singleton_add, Multiset.mem_cons]
    by_cases hx : x = m.next
    · subst hx; simp
    · simp [hx, h.used x]
  · intro x hx
    rw [Multiset.singleton_add, Multiset.mem_cons] at hx
    rcases hx with rfl | hx
    · exact Nat.lt_succ_self _
    · exact Nat.lt_succ_of_lt (h.below x hx)
  · simp
  · intro x hx
    have : x ≠ m.next := fun e => hnew (e ▸ hx)
    simp [this]

theorem Memory.Within.free {m : Memory} {M : Multiset Nat} {p : MemPtr} (h : m.Within (p.blocks + M)) (hp : p ≠ .junk) :
    ∃ m', m.free p = ok m' ∧ m'.Within M ∧ m.SameOn m' M ∧ m'.fails = m.fails := by
  cases p with
  | junk => exact absurd rfl hp
  | null => exact ⟨m, rfl, by simpa [MemPtr.blocks] using h, SameOn.refl _ _, rfl⟩
  | block a =>
    have h' : m.Within (a ::ₘ M) := by simpa [MemPtr.blocks] using h
    have ha := (h'.used a).2 (Multiset.mem_cons_self a M)
    have hn := Multiset.nodup_cons.1 h'.nodup
    obtain ⟨x, hx⟩ := Option.isSome_iff_exists.1 ha
    refine ⟨{ m with blocks := Function.update m.blocks a none }, ?_, ⟨hn.2, ?_, ?_⟩, ?_, rfl⟩
    · unfold Memory.free
      simp only [hx]
    · intro b
      by_cases hb : b = a
      · subst hb; simp [hn.1]
      · have := h'.used b
        simp [hb] at this ⊢
        exact this
    · intro b hb
      exact h'.below b (Multiset.mem_cons_of_mem hb)
    · intro b hb
      have : b ≠ a := fun e => hn.1 (e ▸ hb)
      simp [this]

theorem Memory.Within.put {m : Memory} {M : Multiset Nat} {a : Nat} (h : m.Within M) (ha : a ∈ M) (b : MemBlock) :
    Memory.Within { m with blocks := Function.update m.blocks a (some b) } M := by
  refine ⟨h.nodup, fun x => ?_, h.below⟩
  by_cases hx : x = a
  · subst hx; simp [ha]
  · simp [hx, h.used x]

theorem Memory.put_same {m : Memory} {M : Multiset Nat} {a : Nat} (ha : a ∉ M) (o : Option MemBlock) :
    m.SameOn { m with blocks := Function.update m.blocks a o } M := by
  intro b hb
  have : b ≠ a := fun e => ha (e ▸ hb)
  simp [this]

theorem Memory.Within.putCell {m : Memory} {M : Multiset Nat} {a : Nat} {c : VarCell} (h : m.Within ({a} + M)) (hc : m.blocks a = some (.cell c)) (c' : VarCell) :
    ∃ m', m.putCell (.block a) c' = ok m' ∧ m'.Within ({a} + M) ∧ m'.blocks a = some (.cell c') ∧ m.SameOn m' M ∧ m'.fails = m.fails := by
  have hn : a ∉ M := by
    have := h.nodup
    rw [Multiset.singleton_add] at this
    exact (Multiset.nodup_cons.1 this).1
  refine ⟨{ m with blocks := Function.update m.blocks a (some (.cell c')) }, ?_, h.put (by simp) _, by simp, put_same hn _, rfl⟩
  unfold Memory.putCell
  simp only [hc]

theorem Memory.Within.putArray {m : Memory} {M : Multiset Nat} {a : Nat} {l : List MemPtr} (h : m.Within ({a} + M)) (hc : m.blocks a = some (.ptrs l)) (l' : List MemPtr) :
    ∃ m', m.putArray (.block a) l' = ok m' ∧ m'.Within ({a} + M) ∧ m'.blocks a = some (.ptrs l') ∧ m.SameOn m' M ∧ m'.fails = m.fails := by
  have hn : a ∉ M := by
    have := h.nodup
    rw [Multiset.singleton_add] at this
    exact (Multiset.nodup_cons.1 this).1
  refine ⟨{ m with blocks := Function.update m.blocks a (some (.ptrs l')) }, ?_, h.put (by simp) _, by simp, put_same hn _, rfl⟩
  unfold Memory.putArray
  simp only [hc]

theorem cell_at {m : Memory} {a : Nat} {c : VarCell} (h : m.blocks a = some (.cell c)) : m.cell (.block a) = ok c := by
  unfold Memory.cell
  simp only [h]

theorem array_at {m : Memory} {a : Nat} {l : List MemPtr} (h : m.blocks a = some (.ptrs l)) : m.array (.block a) = ok l := by
  unfold Memory.array
  simp only [h]

theorem isNull_ok {p : MemPtr} (h : p ≠ .junk) : p.isNull = ok (decide (p = .null)) := by
  cases p <;> simp [MemPtr.isNull] at *

/-- the blocks of several pointers -/
def ptrBlocks (l : List MemPtr) : Multiset Nat := (l.map MemPtr.blocks).sum

theorem ptrBlocks_cons (p : MemPtr) (l : List MemPtr) : ptrBlocks (p :: l) = p.blocks + ptrBlocks l := by simp [ptrBlocks]

theorem ptrBlocks_append (l l' : List MemPtr) : ptrBlocks (l ++ l') = ptrBlocks l + ptrBlocks l' := by simp [ptrBlocks]

theorem Memory.Within.freeNames {m : Memory} {M : Multiset Nat} {s : Nat} {row : List MemPtr} (h : m.Within (ptrBlocks row + ({s} + M))) (hs : m.blocks s = some (.ptrs row))
    (hj : ∀ p ∈ row, p ≠ .junk) :
    ∃ m', m.freeNames (.block s) row.length = ok m' ∧ m'.Within ({s} + M) ∧ m.SameOn m' ({s} + M) ∧ m'.fails = m.fails := by
  unfold Memory.freeNames
  obtain ⟨m', e1, e2, e3, e4⟩ := loop_inv (n := row.length) (s := m) (f := fun j m => do
      let row ← m.array (.block s)
      let p ← rd row j
      m.free p) (fun j x => x.Within (ptrBlocks (row.drop j) + ({s} + M)) ∧ m.SameOn x ({s} + M) ∧ x.fails = m.fails)
    ⟨by simpa using h, SameOn.refl _ _, rfl⟩ (by
      rintro j hj' x ⟨g1, g2, g3⟩
      have hx : x.blocks s = some (.ptrs row) := by rw [g2 s (by simp)]; exact hs
      rw [List.drop_eq_getElem_cons hj', ptrBlocks_cons, add_assoc] at g1
      obtain ⟨y, f1, f2, f3, f4⟩ := g1.free (hj _ (List.getElem_mem hj'))
      refine ⟨y, ?_, f2, g2.trans (f3.mono (Multiset.le_add_left _ _)), f4.trans g3⟩
      rw [array_at hx, ok_bind, rd_lt hj', ok_bind]
      exact f1)
  refine ⟨m', e1, ?_, e3, e4⟩
  simpa [ptrBlocks] using e2

/-- a text is set for the first time -/
theorem Memory.Within.setText {m : Memory} {M : Multiset Nat} (h : m.Within M) (hf : ∀ k, m.fails k = false) (given : Bool) :
    ∃ p m', m.setText .null given = ok (!given, p, m') ∧ p ≠ .junk ∧ p.blocks.card = given.toNat ∧ (given = true → p ≠ .null) ∧
      m'.Within (p.blocks + M) ∧ m.SameOn m' M ∧ m'.fails = m.fails := by
  cases given with
  | false => exact ⟨.null, m, rfl, by simp, by simp [MemPtr.blocks], by simp, by simpa [MemPtr.blocks] using h, SameOn.refl _ _, rfl⟩
  | true =>
    obtain ⟨a, m', e1, e2, _, e4, e5⟩ := h.alloc hf .raw
    refine ⟨.block a, m', ?_, by simp, by simp [MemPtr.blocks], by simp, e2, e4, e5⟩
    unfold Memory.setText
    simp only [if_true, MemPtr.isNull, ok_bind, Memory.free, e1]
    simp

/-- what is in a variable -/
structure Entry where
  addr : Nat
  cell : VarCell
  names : List MemPtr

/-- its blocks -/
def Entry.blocks (e : Entry) : Multiset Nat :=
  {e.addr} + e.cell.symbol.blocks + e.cell.name.blocks + e.cell.states.blocks + ptrBlocks e.names + e.cell.likelihood.blocks + e.cell.prior.blocks + e.cell.parents.blocks +
    e.cell.mapping.blocks

/-- the variable is as it should be -/
structure Entry.Good (e : Entry) (m : Memory) (vars : List MemPtr) (x : Holding) : Prop where
  cell : m.blocks e.addr = some (.cell e.cell)
  symbol : e.cell.symbol ≠ .junk
  name : e.cell.name ≠ .junk
  texts : e.cell.symbol.blocks.card + e.cell.name.blocks.card = x.texts
  states : ∃ s, e.cell.states = .block s ∧ m.blocks s = some (.ptrs e.names)
  length : e.names.length = e.cell.card
  card : e.cell.card = x.states
  filled : ∀ p ∈ e.names, ∃ b, p = .block b
  likelihood : ∃ b, e.cell.likelihood = .block b
  prior : if x.prior then ∃ b, e.cell.prior = .block b else e.cell.prior = .null
  parents : if x.parents = [] then e.cell.parents = .null else ∃ b, e.cell.parents = .block b ∧ m.blocks b = some (.ptrs (x.parents.map (fun i => vars.getD i .junk)))
  nParents : e.cell.nParents = x.parents.length
  mapping : if x.mapped then ∃ b, e.cell.mapping = .block b else e.cell.mapping = .null

theorem Entry.Good.keep {e : Entry} {m m' : Memory} {vars : List MemPtr} {x : Holding} (h : e.Good m vars x) (hs : m.SameOn m' e.blocks) : e.Good m' vars x := by
  have hcell : m'.blocks e.addr = some (.cell e.cell) := by
    rw [hs _ (by simp [Entry.blocks])]; exact h.cell
  refine { h with cell := hcell, states := ?_, parents := ?_ }
  · obtain ⟨s, h1, h2⟩ := h.states
    refine ⟨s, h1, ?_⟩
    rw [hs s (by simp [Entry.blocks, h1, MemPtr.blocks])]
    exact h2
  · have := h.parents
    split at this
    · rename_i h0
      rw [if_pos h0]; exact this
    · rename_i h0
      rw [if_neg h0]
      obtain ⟨b, h1, h2⟩ := this
      refine ⟨b, h1, ?_⟩
      rw [hs b (by simp [Entry.blocks, h1, MemPtr.blocks])]
      exact h2

theorem Entry.Good.more {e : Entry} {m : Memory} {vars vars' : List MemPtr} {x : Holding} (h : e.Good m vars x) (hp : ∀ p ∈ x.parents, p < vars.length) :
    e.Good m (vars ++ vars') x := by
  refine { h with parents := ?_ }
  have := h.parents
  split at this
  · rename_i h0
    rw [if_pos h0]; exact this
  · rename_i h0
    rw [if_neg h0]
    obtain ⟨b, h1, h2⟩ := this
    refine ⟨b, h1, ?_⟩
    rw [h2]
    congr 2
    refine List.map_congr_left fun p hp' => ?_
    rw [List.getD_eq_getElem?_getD, List.getD_eq_getElem?_getD, List.getElem?_append_left (hp p hp')]

theorem to_card {p : MemPtr} (h : ∃ b, p = .block b) : p.blocks.card = 1 := by
  obtain ⟨b, rfl⟩ := h
  rfl

theorem Entry.Good.count {e : Entry} {m : Memory} {vars : List MemPtr} {x : Holding} (h : e.Good m vars x) : e.blocks.card = x.blocks := by
  unfold Entry.blocks Holding.blocks
  simp only [Multiset.card_add, Multiset.card_singleton]
  have h1 : e.cell.states.blocks.card = 1 := to_card (h.states.imp fun _ h => h.1)
  have h2 : e.cell.likelihood.blocks.card = 1 := to_card h.likelihood
  have h3 : (ptrBlocks e.names).card = x.states := by
    rw [← h.card, ← h.length]
    have := h.filled
    generalize e.names = l at this
    induction l with
    | nil => rfl
    | cons p l ih =>
      rw [ptrBlocks_cons, Multiset.card_add, ih (fun q hq => this q (by simp [hq])), to_card (this p (by simp)), List.length_cons]
      omega
  have h4 : e.cell.prior.blocks.card = if x.prior then 1 else 0 := by
    have := h.prior
    split at this
    · rename_i hx; rw [if_pos hx]; exact to_card this
    · rename_i hx; rw [if_neg hx, this]; rfl
  have h5 : e.cell.mapping.blocks.card = if x.mapped then 1 else 0 := by
    have := h.mapping
    split at this
    · rename_i hx; rw [if_pos hx]; exact to_card this
    · rename_i hx; rw [if_neg hx, this]; rfl
  have h6 : e.cell.parents.blocks.card = if x.parents = [] then 0 else 1 := by
    have := h.parents
    split at this
    · rename_i hx; rw [if_pos hx, this]; rfl
    · rename_i hx; rw [if_neg hx]; exact to_card (this.imp fun _ h => h.1)
  have h7 := h.texts
  rw [h1, h2, h3, h4, h5, h6]
  omega

/-! ### the functions -/

theorem Memory.Within.as {m : Memory} {M N : Multiset Nat} (h : m.Within M) (e : M = N) : m.Within N := e ▸ h

theorem freeVariable_spec {m : Memory} {M : Multiset Nat} {e : Entry} {vars : List MemPtr} {x : Holding} (h : m.Within (e.blocks + M)) (he : e.Good m vars x) :
    ∃ m', m.freeVariable (.block e.addr) = ok m' ∧ m'.Within M ∧ m.SameOn m' M ∧ m'.fails = m.fails := by
  obtain ⟨s, hs, hrow⟩ := he.states
  have hb : e.blocks + M = e.cell.symbol.blocks + (e.cell.name.blocks + (ptrBlocks e.names + ({s} + (e.cell.parents.blocks + (e.cell.mapping.blocks + (e.cell.likelihood.blocks +
      (e.cell.prior.blocks + ({e.addr} + M)))))))) := by
    unfold Entry.blocks
    rw [hs]
    simp only [MemPtr.blocks]
    abel
  rw [hb] at h
  have j1 : e.cell.parents ≠ .junk := by
    have := he.parents
    split at this
    · rw [this]; simp
    · obtain ⟨b, h1, _⟩ := this; rw [h1]; simp
  have j2 : e.cell.mapping ≠ .junk := by
    have := he.mapping
    split at this
    · obtain ⟨b, h1⟩ := this; rw [h1]; simp
    · rw [this]; simp
  have j3 : e.cell.likelihood ≠ .junk := by
    obtain ⟨b, h1⟩ := he.likelihood; rw [h1]; simp
  have j4 : e.cell.prior ≠ .junk := by
    have := he.prior
    split at this
    · obtain ⟨b, h1⟩ := this; rw [h1]; simp
    · rw [this]; simp
  obtain ⟨m1, a1, w1, s1, f1⟩ := h.free he.symbol
  obtain ⟨m2, a2, w2, s2, f2⟩ := w1.free he.name
  have hrow2 : m2.blocks s = some (.ptrs e.names) := by
    rw [s2 s (by simp), s1 s (by simp)]; exact hrow
  obtain ⟨m3, a3, w3, s3, f3⟩ := w2.freeNames hrow2 (fun p hp => by obtain ⟨b, rfl⟩ := he.filled p hp; simp)
  obtain ⟨m4, a4, w4, s4, f4⟩ := Memory.Within.free (p := .block s) w3 (by simp)
  obtain ⟨m5, a5, w5, s5, f5⟩ := w4.free j1
  obtain ⟨m6, a6, w6, s6, f6⟩ := w5.free j2
  obtain ⟨m7, a7, w7, s7, f7⟩ := w6.free j3
  obtain ⟨m8, a8, w8, s8, f8⟩ := w7.free j4
  obtain ⟨m9, a9, w9, s9, f9⟩ := Memory.Within.free (p := .block e.addr) w8 (by simp)
  refine ⟨m9, ?_, w9, ?_, by rw [f9, f8, f7, f6, f5, f4, f3, f2, f1]⟩
  · unfold Memory.freeVariable
    rw [he.length] at a3
    simp only [MemPtr.isNull, ok_bind, Bool.false_eq_true, if_false, cell_at he.cell, a1, a2, hs, a3, a4, a5, a6, a7, a8, a9]
  · intro b hb
    rw [s9 b hb, s8 b (by simp [hb]), s7 b (by simp [hb]), s6 b (by simp [hb]), s5 b (by simp [hb]), s4 b (by simp [hb]), s3 b (by simp [hb]), s2 b (by simp [hb]), s1 b (by simp [hb])]

/-- The blocks of a variable without those of one of its fields. -/
theorem Entry.blocks_parents (e : Entry) (p : MemPtr) (n : Nat) : ({ e with cell := { e.cell with parents := p, nParents := n } } : Entry).blocks + e.cell.parents.blocks = p.blocks + e.blocks := by
  unfold Entry.blocks
  simp only
  abel

theorem Entry.Good.noJunk {e : Entry} {m : Memory} {vars : List MemPtr} {x : Holding} (he : e.Good m vars x) :
    e.cell.parents ≠ .junk ∧ e.cell.mapping ≠ .junk ∧ e.cell.likelihood ≠ .junk ∧ e.cell.prior ≠ .junk := by
  refine ⟨?_, ?_, ?_, ?_⟩
  · have := he.parents
    split at this
    · rw [this]; simp
    · obtain ⟨b, h1, _⟩ := this; rw [h1]; simp
  · have := he.mapping
    split at this
    · obtain ⟨b, h1⟩ := this; rw [h1]; simp
    · rw [this]; simp
  · obtain ⟨b, h1⟩ := he.likelihood; rw [h1]; simp
  · have := he.prior
    split at this
    · obtain ⟨b, h1⟩ := this; rw [h1]; simp
    · rw [this]; simp

/-- the blocks of a variable except the variable itself -/
def Entry.rest (e : Entry) : Multiset Nat :=
  e.cell.symbol.blocks + e.cell.name.blocks + e.cell.states.blocks + ptrBlocks e.names + e.cell.likelihood.blocks + e.cell.prior.blocks + e.cell.parents.blocks + e.cell.mapping.blocks

theorem Entry.blocks_rest (e : Entry) : e.blocks = {e.addr} + e.rest := by
  unfold Entry.blocks Entry.rest
  abel

theorem setParents_spec {m : Memory} {M : Multiset Nat} {e : Entry} {vars : List MemPtr} {x : Holding} (h : m.Within (e.blocks + M)) (he : e.Good m vars x)
    (hf : ∀ k, m.fails k = false) (ps : List Nat) :
    ∃ m' e', m.setParents (.block e.addr) (ps.map (fun i => vars.getD i .junk)) = ok m' ∧ m'.Within (Entry.blocks e' + M) ∧ m.SameOn m' M ∧ m'.fails = m.fails ∧ e'.addr = e.addr ∧
      e'.Good m' vars { x with parents := ps } := by
  obtain ⟨s, hs, hrow⟩ := he.states
  obtain ⟨R, hR⟩ : ∃ R, R = e.cell.symbol.blocks + e.cell.name.blocks + ({s} + ptrBlocks e.names + e.cell.likelihood.blocks + e.cell.prior.blocks + e.cell.mapping.blocks) + M := ⟨_, rfl⟩
  have hw : e.blocks + M = e.cell.parents.blocks + ({e.addr} + R) := by
    rw [hR]; unfold Entry.blocks; rw [hs]; simp only [MemPtr.blocks]; abel
  rw [hw] at h
  obtain ⟨m1, a1, w1, s1, f1⟩ := h.free he.noJunk.1
  have hc1 : m1.blocks e.addr = some (.cell e.cell) := by rw [s1 _ (by simp)]; exact he.cell
  have hsR : s ∈ R := by rw [hR]; simp
  have hMR : M ≤ R := by rw [hR]; exact Multiset.le_add_left _ _
  unfold Memory.setParents
  simp only [MemPtr.isNull, ok_bind, Bool.false_eq_true, if_false, cell_at he.cell, a1, List.length_map]
  by_cases hp : 0 < ps.length
  · rw [if_pos hp]
    obtain ⟨b, m2, a2, w2, b2, s2, f2⟩ := w1.alloc (by rw [f1]; exact hf) (.ptrs (ps.map (fun i => vars.getD i .junk)))
    have hc2 : m2.blocks e.addr = some (.cell e.cell) := by rw [s2 _ (by simp)]; exact hc1
    have w2' : m2.Within ({e.addr} + ({b} + R)) := w2.as (by abel)
    obtain ⟨m3, a3, w3, b3, s3, f3⟩ := w2'.putCell hc2 { e.cell with parents := .block b, nParents := ps.length }
    refine ⟨m3, { e with cell := { e.cell with parents := .block b, nParents := ps.length } }, ?_, ?_, ?_, by rw [f3, f2, f1], rfl, ?_⟩
    · rw [a2]
      simpa using a3
    · refine w3.as ?_
      rw [hR]; unfold Entry.blocks; rw [hs]; simp only [MemPtr.blocks]; abel
    · intro z hz
      have hz' := Multiset.mem_of_le hMR hz
      rw [s3 z (by simp [hz']), s2 z (by simp [hz']), s1 z (by simp [hz'])]
    · refine { cell := b3, symbol := he.symbol, name := he.name, texts := he.texts, states := ⟨s, hs, ?_⟩, length := he.length, card := he.card, filled := he.filled, likelihood := he.likelihood, prior := he.prior, parents := ?_, nParents := rfl, mapping := he.mapping }
      · rw [s3 s (by simp [hsR]), s2 s (by simp [hsR]), s1 s (by simp [hsR])]; exact hrow
      · rw [if_neg (by rintro h0; simp only at h0; rw [h0] at hp; exact absurd hp (by simp))]
        exact ⟨b, rfl, by rw [s3 b (by simp)]; exact b2⟩
  · rw [if_neg hp]
    have hnil : ps = [] := List.eq_nil_of_length_eq_zero (by omega)
    obtain ⟨m3, a3, w3, b3, s3, f3⟩ := w1.putCell hc1 { e.cell with parents := .null, nParents := 0 }
    refine ⟨m3, { e with cell := { e.cell with parents := .null, nParents := 0 } }, a3, ?_, ?_, by rw [f3, f1], rfl, ?_⟩
    · refine w3.as ?_
      rw [hR]; unfold Entry.blocks; rw [hs]; simp only [MemPtr.blocks]; abel
    · intro z hz
      have hz' := Multiset.mem_of_le hMR hz
      rw [s3 z (by simp [hz']), s1 z (by simp [hz'])]
    · refine { cell := b3, symbol := he.symbol, name := he.name, texts := he.texts, states := ⟨s, hs, ?_⟩, length := he.length, card := he.card, filled := he.filled, likelihood := he.likelihood, prior := he.prior, parents := ?_, nParents := by simp [hnil], mapping := he.mapping }
      · rw [s3 s (by simp [hsR]), s1 s (by simp [hsR])]; exact hrow
      · rw [if_pos hnil]

/-- the array of parents in the memory after a change elsewhere -/
theorem Entry.Good.keepParents {e : Entry} {m m' : Memory} {vars : List MemPtr} {x : Holding} (he : e.Good m vars x) (hs : ∀ b, e.cell.parents = .block b → m'.blocks b = m.blocks b) :
    if x.parents = [] then e.cell.parents = .null else ∃ b, e.cell.parents = .block b ∧ m'.blocks b = some (.ptrs (x.parents.map (fun i => vars.getD i .junk))) := by
  have := he.parents
  split at this
  · rename_i h0
    rw [if_pos h0]; exact this
  · rename_i h0
    rw [if_neg h0]
    obtain ⟨b, h1, h2⟩ := this
    exact ⟨b, h1, by rw [hs b h1]; exact h2⟩

theorem givePrior_spec {m : Memory} {M : Multiset Nat} {e : Entry} {vars : List MemPtr} {x : Holding} (h : m.Within (e.blocks + M)) (he : e.Good m vars x)
    (hf : ∀ k, m.fails k = false) :
    ∃ m1 b m2 m3 e', m.free e.cell.prior = ok m1 ∧ m1.alloc .raw = (.block b, m2) ∧ m2.putCell (.block e.addr) { e.cell with prior := .block b } = ok m3 ∧
      m3.Within (Entry.blocks e' + M) ∧ m.SameOn m3 M ∧ m3.fails = m.fails ∧ e'.addr = e.addr ∧ e'.Good m3 vars { x with prior := true } := by
  obtain ⟨s, hs, hrow⟩ := he.states
  obtain ⟨R, hR⟩ : ∃ R, R = e.cell.symbol.blocks + e.cell.name.blocks + ({s} + ptrBlocks e.names + e.cell.likelihood.blocks + e.cell.parents.blocks + e.cell.mapping.blocks) + M := ⟨_, rfl⟩
  have hw : e.blocks + M = e.cell.prior.blocks + ({e.addr} + R) := by
    rw [hR]; unfold Entry.blocks; rw [hs]; simp only [MemPtr.blocks]; abel
  rw [hw] at h
  obtain ⟨m1, a1, w1, s1, f1⟩ := h.free he.noJunk.2.2.2
  have hc1 : m1.blocks e.addr = some (.cell e.cell) := by rw [s1 _ (by simp)]; exact he.cell
  have hsR : s ∈ R := by rw [hR]; simp
  have hMR : M ≤ R := by rw [hR]; exact Multiset.le_add_left _ _
  obtain ⟨b, m2, a2, w2, b2, s2, f2⟩ := w1.alloc (by rw [f1]; exact hf) .raw
  have hc2 : m2.blocks e.addr = some (.cell e.cell) := by rw [s2 _ (by simp)]; exact hc1
  have w2' : m2.Within ({e.addr} + ({b} + R)) := w2.as (by abel)
  obtain ⟨m3, a3, w3, b3, s3, f3⟩ := w2'.putCell hc2 { e.cell with prior := .block b }
  have hsame : ∀ z ∈ R, m3.blocks z = m.blocks z := fun z hz => by rw [s3 z (by simp [hz]), s2 z (by simp [hz]), s1 z (by simp [hz])]
  refine ⟨m1, b, m2, m3, { e with cell := { e.cell with prior := .block b } }, a1, a2, a3, ?_, ?_, by rw [f3, f2, f1], rfl, ?_⟩
  · refine w3.as ?_
    rw [hR]; unfold Entry.blocks; rw [hs]; simp only [MemPtr.blocks]; abel
  · exact fun z hz => hsame z (Multiset.mem_of_le hMR hz)
  · exact { cell := b3, symbol := he.symbol, name := he.name, texts := he.texts, states := ⟨s, hs, by rw [hsame s hsR]; exact hrow⟩, length := he.length, card := he.card, filled := he.filled, likelihood := he.likelihood, prior := by rw [if_pos rfl]; exact ⟨b, rfl⟩, parents := he.keepParents (fun z hz => hsame z (by rw [hR]; simp [hz, MemPtr.blocks])), nParents := he.nParents, mapping := he.mapping }

theorem setPrior_spec {m : Memory} {M : Multiset Nat} {e : Entry} {vars : List MemPtr} {x : Holding} (h : m.Within (e.blocks + M)) (he : e.Good m vars x)
    (hf : ∀ k, m.fails k = false) (given : Bool) :
    ∃ m' e', m.setPrior (.block e.addr) given = ok m' ∧ m'.Within (Entry.blocks e' + M) ∧ m.SameOn m' M ∧ m'.fails = m.fails ∧ e'.addr = e.addr ∧
      e'.Good m' vars { x with prior := x.prior || given } := by
  unfold Memory.setPrior
  simp only [MemPtr.isNull, ok_bind, Bool.false_eq_true, if_false, cell_at he.cell]
  cases given with
  | false => exact ⟨m, e, by simp, h, Memory.SameOn.refl _ _, rfl, rfl, by simpa using he⟩
  | true =>
    obtain ⟨m1, b, m2, m3, e', a1, a2, a3, k⟩ := givePrior_spec h he hf
    refine ⟨m3, e', ?_, by simpa using k⟩
    simp [a1, a2, a3, ok_bind]

theorem defaultPrior_spec {m : Memory} {M : Multiset Nat} {e : Entry} {vars : List MemPtr} {x : Holding} (h : m.Within (e.blocks + M)) (he : e.Good m vars x)
    (hf : ∀ k, m.fails k = false) :
    ∃ m' e', m.defaultPrior (.block e.addr) = ok m' ∧ m'.Within (Entry.blocks e' + M) ∧ m.SameOn m' M ∧ m'.fails = m.fails ∧ e'.addr = e.addr ∧
      e'.Good m' vars { x with prior := x.prior || (x.parents == []) } := by
  unfold Memory.defaultPrior
  simp only [ok_bind, cell_at he.cell, isNull_ok he.noJunk.1, isNull_ok he.noJunk.2.2.2]
  have hpar := he.parents
  have hpri := he.prior
  by_cases hp : x.parents = []
  · rw [if_pos hp] at hpar
    cases hx : x.prior with
    | true =>
      rw [hx, if_pos rfl] at hpri
      obtain ⟨b, hb⟩ := hpri
      have hxx : ({ x with prior := true || (x.parents == []) } : Holding) = x := by rw [Bool.true_or, ← hx]
      exact ⟨m, e, by simp [hpar, hb], h, Memory.SameOn.refl _ _, rfl, rfl, by rw [hxx]; exact he⟩
    | false =>
      rw [hx, if_neg (by simp)] at hpri
      obtain ⟨m1, b, m2, m3, e', a1, a2, a3, k⟩ := givePrior_spec h he hf
      rw [hpri] at a1
      cases a1
      refine ⟨m3, e', ?_, by simpa [hp] using k⟩
      simpa [hpar, hpri, a2] using a3
  · rw [if_neg hp] at hpar
    obtain ⟨b, hb, _⟩ := hpar
    have hxx : ({ x with prior := x.prior || (x.parents == []) } : Holding) = x := by
      have : (x.parents == []) = false := by simpa using hp
      rw [this, Bool.or_false]
    exact ⟨m, e, by simp [hb], h, Memory.SameOn.refl _ _, rfl, rfl, by rw [hxx]; exact he⟩

theorem lookAt_ok {m : Memory} {l : List MemPtr} (h : ∀ p ∈ l, ∃ a c, p = .block a ∧ m.blocks a = some (.cell c)) : m.lookAt l = ok () := by
  induction l with
  | nil => rfl
  | cons p l ih =>
    obtain ⟨a, c, rfl, hc⟩ := h p (by simp)
    rw [Memory.lookAt, cell_at hc, ok_bind]
    exact ih fun q hq => h q (by simp [hq])

theorem findMapping_spec {m : Memory} {M : Multiset Nat} {e : Entry} {vars : List MemPtr} {x : Holding} (h : m.Within (e.blocks + M)) (he : e.Good m vars x)
    (hf : ∀ k, m.fails k = false) (hp : ∀ p ∈ x.parents, ∃ a c, vars.getD p .junk = .block a ∧ m.blocks a = some (.cell c)) :
    ∃ m' e', m.findMapping (.block e.addr) = ok m' ∧ m'.Within (Entry.blocks e' + M) ∧ m.SameOn m' M ∧ m'.fails = m.fails ∧ e'.addr = e.addr ∧
      e'.Good m' vars { x with mapped := true } := by
  unfold Memory.findMapping
  simp only [MemPtr.isNull, ok_bind, Bool.false_eq_true, if_false, cell_at he.cell]
  have hmap := he.mapping
  cases hx : x.mapped with
  | true =>
    rw [hx, if_pos rfl] at hmap
    obtain ⟨b, hb⟩ := hmap
    have hxx : ({ x with mapped := true } : Holding) = x := by rw [← hx]
    exact ⟨m, e, by simp [hb], h, Memory.SameOn.refl _ _, rfl, rfl, by rw [hxx]; exact he⟩
  | false =>
    rw [hx, if_neg (by simp)] at hmap
    obtain ⟨s, hs, hrow⟩ := he.states
    obtain ⟨b, m2, a2, w2, b2, s2, f2⟩ := h.alloc hf .raw
    have hc2 : m2.blocks e.addr = some (.cell e.cell) := by rw [s2 _ (by simp [Entry.blocks])]; exact he.cell
    have w2' : m2.Within ({e.addr} + ({b} + (e.rest + M))) := w2.as (by rw [e.blocks_rest]; abel)
    obtain ⟨m3, a3, w3, b3, s3, f3⟩ := w2'.putCell hc2 { e.cell with mapping := .block b }
    have hsame : ∀ z ∈ e.rest + M, m3.blocks z = m.blocks z := fun z hz => by
      rw [s3 z (Multiset.mem_add.2 (Or.inr hz)), s2 z (by rw [e.blocks_rest, add_assoc]; exact Multiset.mem_add.2 (Or.inr hz))]
    have hlook : m2.lookAt (x.parents.map (fun i => vars.getD i .junk)) = ok () := by
      refine lookAt_ok fun p hp' => ?_
      obtain ⟨i, hi, rfl⟩ := List.mem_map.1 hp'
      obtain ⟨a, c, h1, h2⟩ := hp i hi
      refine ⟨a, c, h1, ?_⟩
      rw [s2 a ((h.used a).1 (by rw [h2]; rfl))]
      exact h2
    refine ⟨m3, { e with cell := { e.cell with mapping := .block b } }, ?_, ?_, ?_, by rw [f3, f2], rfl, ?_⟩
    · have hpar := he.parents
      simp only [hmap, MemPtr.isNull, ok_bind, if_true, a2]
      rw [if_neg (by simp)]
      by_cases h0 : x.parents = []
      · have hn : e.cell.nParents = 0 := by rw [he.nParents, h0]; rfl
        simpa [hn, Memory.lookAt] using a3
      · rw [if_neg h0] at hpar
        obtain ⟨z, h1, h2⟩ := hpar
        have harr : m2.array e.cell.parents = ok (x.parents.map (fun i => vars.getD i .junk)) := by
          rw [h1]
          refine array_at ?_
          rw [s2 z (by simp [Entry.blocks, h1, MemPtr.blocks])]
          exact h2
        rw [if_pos (by rw [he.nParents]; exact List.length_pos_iff.2 h0), harr, ok_bind, if_neg (by rw [List.length_map, he.nParents]; omega),
          List.take_of_length_le (by rw [List.length_map, he.nParents]), hlook, ok_bind]
        exact a3
    · refine w3.as ?_
      unfold Entry.blocks Entry.rest
      rw [hmap]
      simp only [MemPtr.blocks]
      abel
    · exact fun z hz => hsame z (Multiset.mem_add.2 (Or.inr hz))
    · exact { cell := b3, symbol := he.symbol, name := he.name, texts := he.texts, states := ⟨s, hs, by rw [hsame s (by simp [Entry.rest, hs, MemPtr.blocks])]; exact hrow⟩, length := he.length, card := he.card, filled := he.filled, likelihood := he.likelihood, prior := he.prior, parents := he.keepParents (fun z hz => hsame z (by simp [Entry.rest, hz, MemPtr.blocks])), nParents := he.nParents, mapping := by rw [if_pos rfl]; exact ⟨b, rfl⟩ }

theorem ptrBlocks_replicate (n : Nat) : ptrBlocks (List.replicate n .null) = 0 := by
  induction n with
  | zero => rfl
  | succ n ih => rw [List.replicate_succ, ptrBlocks_cons, ih]; rfl

theorem ptrBlocks_set {l : List MemPtr} {i : Nat} (hi : i < l.length) (h : l[i] = .null) (p : MemPtr) : ptrBlocks (l.set i p) = p.blocks + ptrBlocks l := by
  induction l generalizing i with
  | nil => exact absurd hi (by simp)
  | cons q l ih =>
    cases i with
    | zero =>
      rw [List.set_cons_zero, ptrBlocks_cons, ptrBlocks_cons]
      have : q = .null := by simpa using h
      rw [this]
      simp [MemPtr.blocks]
    | succ i =>
      rw [List.set_cons_succ, ptrBlocks_cons, ptrBlocks_cons, ih (by simpa using hi) (by simpa using h)]
      abel

/-- the names of the states are put down -/
theorem nameStates_spec {m : Memory} {R : Multiset Nat} {v s : Nat} {c : VarCell} {given : List Bool} (hg : ∀ b ∈ given, b = true) (h : m.Within ({s} + ({v} + R)))
    (hc : m.blocks v = some (.cell c)) (hcs : c.states = .block s) (hs : m.blocks s = some (.ptrs (List.replicate given.length .null))) (hf : ∀ k, m.fails k = false) :
    ∃ m' row, loop given.length (Memory.nameState (.block v) given) m = ok m' ∧ m'.Within (ptrBlocks row + ({s} + ({v} + R))) ∧ m'.blocks v = some (.cell c) ∧
      m'.blocks s = some (.ptrs row) ∧ row.length = given.length ∧ (∀ p ∈ row, ∃ b, p = .block b) ∧ m.SameOn m' R ∧ m'.fails = m.fails := by
  obtain ⟨m', e1, row, e2, e3, e4, e5, e6, _, e8, e9⟩ := loop_inv (n := given.length) (s := m) (f := Memory.nameState (.block v) given)
    (fun i (x : Memory) => ∃ row : List MemPtr, x.Within (ptrBlocks row + ({s} + ({v} + R))) ∧ x.blocks v = some (.cell c) ∧ x.blocks s = some (.ptrs row) ∧ row.length = given.length ∧
      (∀ j (hj : j < row.length), j < i → ∃ b, row[j] = .block b) ∧ (∀ j (hj : j < row.length), i ≤ j → row[j] = .null) ∧ m.SameOn x R ∧ x.fails = m.fails)
    ⟨List.replicate given.length .null, by rw [ptrBlocks_replicate, zero_add]; exact h, hc, hs, by simp, by intro j _ hj; omega, by intro j hj _; simp, Memory.SameOn.refl _ _, rfl⟩ (by
      rintro i hi x ⟨row, g1, g2, g3, g4, g5, g6, g7, g8⟩
      have hir : i < row.length := by omega
      have hnull := g6 i hir (le_refl i)
      have hgi : given[i] = true := hg _ (List.getElem_mem hi)
      obtain ⟨p, y, a1, _, _, a4, a5, a6, a7⟩ := g1.setText (by rw [g8]; exact hf) true
      have hp : ∃ b, p = .block b := by
        have := a4 rfl
        cases p with
        | junk => contradiction
        | null => exact absurd rfl this
        | block b => exact ⟨b, rfl⟩
      have y1 : y.blocks v = some (.cell c) := by rw [a6 v (by simp)]; exact g2
      have y2 : y.blocks s = some (.ptrs row) := by rw [a6 s (by simp)]; exact g3
      have a5' : y.Within ({s} + (p.blocks + ptrBlocks row + ({v} + R))) := a5.as (by abel)
      obtain ⟨z, b1, b2, b3, b4, b5⟩ := a5'.putArray y2 (row.set i p)
      refine ⟨z, ?_, row.set i p, ?_, ?_, b3, by simpa using g4, ?_, ?_, ?_, by rw [b5, a7, g8]⟩
      · unfold Memory.nameState
        rw [cell_at g2, ok_bind, hcs, array_at g3, ok_bind, rd_lt hir, ok_bind, rd_lt hi, ok_bind, hnull, hgi, a1, ok_bind]
        simp only
        rw [wr_lt hir, ok_bind, b1, ok_bind]
        rfl
      · refine b2.as ?_
        rw [ptrBlocks_set hir hnull]
        abel
      · rw [b4 v (by simp)]; exact y1
      · intro j hj hji
        rw [List.getElem_set]
        split
        · exact hp
        · exact g5 j (by simpa using hj) (by omega)
      · intro j hj hji
        rw [List.getElem_set, if_neg (by omega)]
        exact g6 j (by simpa using hj) (by omega)
      · intro k hk
        rw [b4 k (by simp [hk]), a6 k (by simp [hk]), g7 k hk])
  refine ⟨m', row, e1, e2, e3, e4, e5, ?_, e8, e9⟩
  intro p hp
  obtain ⟨j, hj, rfl⟩ := List.mem_iff_getElem.1 hp
  exact e6 j hj (by omega)

theorem newVariable_spec {m : Memory} {M : Multiset Nat} (h : m.Within M) (hf : ∀ k, m.fails k = false) (symbol name : Bool) {given : List Bool} (hg : ∀ b ∈ given, b = true) :
    ∃ (e : Entry) (m' : Memory), m.newVariable symbol name (some given) = ok (.block e.addr, m') ∧ m'.Within (e.blocks + M) ∧ m.SameOn m' M ∧ m'.fails = m.fails ∧
      ∀ vars, e.Good m' vars { texts := symbol.toNat + name.toNat, states := given.length } := by
  obtain ⟨v, m1, a1, w1, b1, s1, f1⟩ := h.alloc hf (.cell { card := given.length, symbol := .null, name := .junk, states := .junk, likelihood := .junk, prior := .null, parents := .null, nParents := 0, mapping := .null })
  obtain ⟨p, m2, a2, j2, c2, _, w2, s2, f2⟩ := w1.setText (by rw [f1]; exact hf) symbol
  obtain ⟨q, m3, a3, j3, c3, _, w3, s3, f3⟩ := w2.setText (by rw [f2, f1]; exact hf) name
  have b3 : m3.blocks v = m1.blocks v := by rw [s3 v (by simp), s2 v (by simp)]
  rw [b1] at b3
  have w3' : m3.Within ({v} + (q.blocks + p.blocks + M)) := w3.as (by abel)
  obtain ⟨m4, a4, w4, b4, s4, f4⟩ := w3'.putCell b3 { card := given.length, symbol := p, name := q, states := .junk, likelihood := .junk, prior := .null, parents := .null, nParents := 0, mapping := .null }
  obtain ⟨s, m5, a5, w5, b5, s5, f5⟩ := w4.alloc (by rw [f4, f3, f2, f1]; exact hf) (.ptrs (List.replicate given.length .null))
  have w5' : m5.Within ({v} + ({s} + (q.blocks + p.blocks + M))) := w5.as (by abel)
  obtain ⟨m6, a6, w6, b6, s6, f6⟩ := w5'.putCell (c := { card := given.length, symbol := p, name := q, states := .junk, likelihood := .junk, prior := .null, parents := .null, nParents := 0, mapping := .null })
    (by rw [s5 v (by simp)]; exact b4) { card := given.length, symbol := p, name := q, states := .block s, likelihood := .junk, prior := .null, parents := .null, nParents := 0, mapping := .null }
  have w6' : m6.Within ({s} + ({v} + (q.blocks + p.blocks + M))) := w6.as (by abel)
  obtain ⟨m7, row, a7, w7, b7, r7, l7, g7, s7, f7⟩ := nameStates_spec hg w6' b6 rfl (by rw [s6 s (by simp)]; exact b5) (by rw [f6, f5, f4, f3, f2, f1]; exact hf)
  obtain ⟨k, m8, a8, w8, b8, s8, f8⟩ := w7.alloc (by rw [f7, f6, f5, f4, f3, f2, f1]; exact hf) .raw
  have w8' : m8.Within ({v} + ({k} + (ptrBlocks row + ({s} + (q.blocks + p.blocks + M))))) := w8.as (by abel)
  obtain ⟨m9, a9, w9, b9, s9, f9⟩ := w8'.putCell (c := { card := given.length, symbol := p, name := q, states := .block s, likelihood := .junk, prior := .null, parents := .null, nParents := 0, mapping := .null })
    (by rw [s8 v (by simp)]; exact b7) { card := given.length, symbol := p, name := q, states := .block s, likelihood := .block k, prior := .null, parents := .null, nParents := 0, mapping := .null }
  refine ⟨⟨v, { card := given.length, symbol := p, name := q, states := .block s, likelihood := .block k, prior := .null, parents := .null, nParents := 0, mapping := .null }, row⟩, m9, ?_, ?_, ?_,
    by rw [f9, f8, f7, f6, f5, f4, f3, f2, f1], ?_⟩
  · unfold Memory.newVariable
    simp only [Option.getD_some, Option.isSome_some, if_true, a1, a2, a3, a4, a5, a6, a7, a8, a9, ok_bind, cell_at b7, cell_at b9]
    simp [a1, a2, a3, a4, a5, a6, a7, a8, a9, ok_bind, cell_at b7, cell_at b9]
  · refine w9.as ?_
    unfold Entry.blocks
    simp only [MemPtr.blocks]
    abel
  · intro z hz
    rw [s9 z (by simp [hz]), s8 z (by simp [hz]), s7 z (by simp [hz]), s6 z (by simp [hz]), s5 z (by simp [hz]), s4 z (by simp [hz]), s3 z (by simp [hz]), s2 z (by simp [hz]), s1 z hz]
  · intro vars
    refine { cell := b9, symbol := j2, name := j3, texts := by rw [c2, c3], states := ⟨s, rfl, ?_⟩, length := l7, card := rfl, filled := g7, likelihood := ⟨k, rfl⟩, prior := by simp, parents := by simp, nParents := rfl, mapping := by simp }
    rw [s9 s (by simp), s8 s (by simp)]
    exact r7

/-! ### all variables -/

/-- the blocks of all variables that exist -/
def owned (l : Ledger) (es : Nat → Entry) : Multiset Nat := ∑ i ∈ Finset.range l.length, if (l.getD i none).isSome then (es i).blocks else 0

theorem owned_set {l : Ledger} {i : Nat} (hi : i < l.length) (es : Nat → Entry) (e : Entry) (y : Holding) :
    owned (l.set i (some y)) (Function.update es i e) = e.blocks + owned (l.set i none) es := by
  unfold owned
  simp only [List.length_set]
  rw [← Finset.add_sum_erase _ _ (Finset.mem_range.2 hi), ← Finset.add_sum_erase (Finset.range l.length) (fun j => if ((l.set i none).getD j none).isSome then (es j).blocks else 0) (Finset.mem_range.2 hi)]
  have h1 : ((l.set i (some y)).getD i none).isSome = true := by simp [hi]
  have h2 : ((l.set i none).getD i none).isSome = false := by simp [hi]
  rw [if_pos h1, Function.update_self, if_neg (by rw [h2]; simp), zero_add]
  congr 1
  refine Finset.sum_congr rfl fun j hj => ?_
  have hne : j ≠ i := (Finset.mem_erase.1 hj).1
  rw [Function.update_of_ne hne]
  simp [List.getElem?_set, Ne.symm hne]

theorem owned_split {l : Ledger} {i : Nat} {x : Holding} (h : l[i]? = some (some x)) (es : Nat → Entry) : owned l es = (es i).blocks + owned (l.set i none) es := by
  have hi := (List.getElem?_eq_some_iff.1 h).1
  have hx := (List.getElem?_eq_some_iff.1 h).2
  have := owned_set hi es (es i) x
  rw [Function.update_eq_self] at this
  rw [← this, ← hx, List.set_getElem_self]

theorem owned_append (l : Ledger) (es : Nat → Entry) (e : Entry) (y : Holding) : owned (l ++ [some y]) (Function.update es l.length e) = e.blocks + owned l es := by
  unfold owned
  rw [List.length_append, List.length_singleton, Finset.sum_range_succ, add_comm]
  congr 1
  · simp
  · refine Finset.sum_congr rfl fun j hj => ?_
    have hj' := Finset.mem_range.1 hj
    rw [Function.update_of_ne (by omega)]
    simp [List.getElem?_append_left hj']

theorem owned_le {l : Ledger} {i : Nat} {x : Holding} (h : l[i]? = some (some x)) (es : Nat → Entry) : (es i).blocks ≤ owned l es := by
  rw [owned_split h]
  exact Multiset.le_add_right _ _

/-- The memory holds what is in the ledger. -/
structure VarWorld.Inv (w : VarWorld) (l : Ledger) (es : Nat → Entry) : Prop where
  len : w.vars.length = l.length
  ptr : ∀ (i : Nat) (x : Holding), l[i]? = some (some x) → w.vars[i]? = some (MemPtr.block (es i).addr)
  good : ∀ (i : Nat) (x : Holding), l[i]? = some (some x) → (es i).Good w.mem w.vars x
  older : ∀ (i : Nat) (x : Holding), l[i]? = some (some x) → ∀ p ∈ x.parents, p < l.length
  within : w.mem.Within (owned l es)
  fails : ∀ k, w.mem.fails k = false

theorem VarWorld.Inv.rd {w : VarWorld} {l : Ledger} {es : Nat → Entry} (h : w.Inv l es) {v : Nat} {x : Holding} (hv : l[v]? = some (some x)) :
    Nip.rd w.vars v = ok (.block (es v).addr) := by
  have h1 := h.ptr v x hv
  obtain ⟨hi, h2⟩ := List.getElem?_eq_some_iff.1 h1
  rw [rd_lt hi, h2]

/-- one variable has changed -/
theorem VarWorld.Inv.changed {w : VarWorld} {l : Ledger} {es : Nat → Entry} (h : w.Inv l es) {v : Nat} {x y : Holding} (hv : l[v]? = some (some x)) {m' : Memory} {e' : Entry}
    (h1 : m'.Within (e'.blocks + owned (l.set v none) es)) (h2 : w.mem.SameOn m' (owned (l.set v none) es)) (h3 : m'.fails = w.mem.fails) (h4 : e'.addr = (es v).addr)
    (h5 : e'.Good m' w.vars y) (h6 : ∀ p ∈ y.parents, p < l.length) : VarWorld.Inv { w with mem := m' } (l.set v (some y)) (Function.update es v e') := by
  have hi := (List.getElem?_eq_some_iff.1 hv).1
  have key : ∀ (i : Nat) (z : Holding), (l.set v (some y))[i]? = some (some z) → (i = v ∧ z = y) ∨ (i ≠ v ∧ l[i]? = some (some z)) := by
    intro i z hz
    rw [List.getElem?_set] at hz
    split at hz
    · rename_i e
      subst e
      simp only [hi, if_true, Option.some.injEq] at hz
      exact Or.inl ⟨rfl, hz.symm⟩
    · rename_i e
      exact Or.inr ⟨Ne.symm e, hz⟩
  refine ⟨by simpa using h.len, ?_, ?_, ?_, ?_, by intro k; rw [h3]; exact h.fails k⟩
  · intro i z hz
    rcases key i z hz with ⟨rfl, rfl⟩ | ⟨hne, hz⟩
    · rw [Function.update_self, h4]
      exact h.ptr _ _ hv
    · rw [Function.update_of_ne hne]
      exact h.ptr _ _ hz
  · intro i z hz
    rcases key i z hz with ⟨rfl, rfl⟩ | ⟨hne, hz⟩
    · rw [Function.update_self]
      exact h5
    · rw [Function.update_of_ne hne]
      refine (h.good _ _ hz).keep (h2.mono (owned_le (x := z) ?_ es))
      rw [List.getElem?_set, if_neg (Ne.symm hne)]
      exact hz
  · intro i z hz p hp
    rw [List.length_set]
    rcases key i z hz with ⟨rfl, rfl⟩ | ⟨hne, hz⟩
    · exact h6 p hp
    · exact h.older _ _ hz p hp
  · rw [owned_set hi]
    exact h1

theorem Ledger.change_eq {l : Ledger} {v : Nat} {x : Holding} (h : l[v]? = some (some x)) (g : Holding → Holding) : l.change v g = l.set v (some (g x)) := by
  unfold Ledger.change
  obtain ⟨hi, hx⟩ := List.getElem?_eq_some_iff.1 h
  refine List.ext_getElem? fun i => ?_
  rw [List.getElem?_modify, List.getElem?_set]
  by_cases hiv : v = i
  · rw [if_pos hiv, if_pos hi, ← hiv]
    exact (congrArg _ h).trans (by simp)
  · simp [hiv]

theorem VarWorld.Inv.step {w : VarWorld} {l : Ledger} {es : Nat → Entry} (h : w.Inv l es) {a : VarCall} (ha : a.Allowed l) (hp : a.Plain) :
    ∃ w' es', w.step a = ok w' ∧ VarWorld.Inv w' (l.after a) es' := by
  cases a with
  | create symbol name states =>
    obtain ⟨given, rfl, hg⟩ := hp
    obtain ⟨e, m', a1, a2, a3, a4, a5⟩ := newVariable_spec h.within h.fails symbol name hg
    refine ⟨{ mem := m', vars := w.vars ++ [.block e.addr] }, Function.update es l.length e, ?_, ?_⟩
    · unfold VarWorld.step
      simp only [a1, ok_bind]
    · have key : ∀ (i : Nat) (z : Holding), (l ++ [some { texts := symbol.toNat + name.toNat, states := given.length }])[i]? = some (some z) →
          (i = l.length ∧ z = { texts := symbol.toNat + name.toNat, states := given.length }) ∨ (i < l.length ∧ l[i]? = some (some z)) := by
        intro i z hz
        by_cases hi : i < l.length
        · rw [List.getElem?_append_left hi] at hz
          exact Or.inr ⟨hi, hz⟩
        · rw [List.getElem?_append_right (by omega)] at hz
          have hi' : i - l.length = 0 := by
            have := (List.getElem?_eq_some_iff.1 hz).1
            simp only [List.length_singleton] at this
            omega
          rw [hi'] at hz
          simp only [List.getElem?_cons_zero, Option.some.injEq] at hz
          exact Or.inl ⟨by omega, hz.symm⟩
      unfold Ledger.after
      simp only [Option.getD_some]
      refine ⟨by simp [h.len], ?_, ?_, ?_, ?_, by intro k; rw [a4]; exact h.fails k⟩
      · intro i z hz
        rcases key i z hz with ⟨rfl, rfl⟩ | ⟨hi, hz⟩
        · rw [Function.update_self, List.getElem?_append_right (by rw [h.len]), h.len]
          simp
        · rw [Function.update_of_ne (by omega), List.getElem?_append_left (by rw [h.len]; exact hi)]
          exact h.ptr i z hz
      · intro i z hz
        rcases key i z hz with ⟨rfl, rfl⟩ | ⟨hi, hz⟩
        · rw [Function.update_self]
          exact a5 _
        · rw [Function.update_of_ne (by omega)]
          refine ((h.good i z hz).keep (a3.mono (owned_le hz es))).more fun p hp => ?_
          rw [h.len]
          exact h.older i z hz p hp
      · intro i z hz p hp
        rw [List.length_append]
        rcases key i z hz with ⟨rfl, rfl⟩ | ⟨hi, hz⟩
        · exact absurd hp (by simp)
        · have := h.older i z hz p hp
          omega
      · rw [owned_append]
        exact a2
  | copy v => exact absurd hp (by simp [VarCall.Plain])
  | parents v ps =>
    obtain ⟨⟨x, hx⟩, hps⟩ := ha
    have hw := h.within
    rw [owned_split hx] at hw
    obtain ⟨m', e', a1, a2, a3, a4, a5, a6⟩ := setParents_spec hw (h.good v x hx) h.fails ps
    refine ⟨{ w with mem := m' }, Function.update es v e', ?_, ?_⟩
    · unfold VarWorld.step
      simp only [h.rd hx, a1, ok_bind]
    · unfold Ledger.after
      simp only [Ledger.change_eq hx]
      refine h.changed hx a2 a3 a4 a5 a6 fun p hp => ?_
      obtain ⟨y, hy⟩ := hps p hp
      exact (List.getElem?_eq_some_iff.1 hy).1
  | prior v given =>
    obtain ⟨x, hx⟩ := ha
    have hw := h.within
    rw [owned_split hx] at hw
    obtain ⟨m', e', a1, a2, a3, a4, a5, a6⟩ := setPrior_spec hw (h.good v x hx) h.fails given
    refine ⟨{ w with mem := m' }, Function.update es v e', ?_, ?_⟩
    · unfold VarWorld.step
      simp only [h.rd hx, a1, ok_bind]
    · unfold Ledger.after
      simp only [Ledger.change_eq hx]
      exact h.changed hx a2 a3 a4 a5 a6 (h.older v x hx)
  | mapping v =>
    obtain ⟨⟨x, hx⟩, hps⟩ := ha
    have hw := h.within
    rw [owned_split hx] at hw
    obtain ⟨m', e', a1, a2, a3, a4, a5, a6⟩ := findMapping_spec hw (h.good v x hx) h.fails (by
      intro p hp
      obtain ⟨y, hy⟩ := hps x hx p hp
      refine ⟨(es p).addr, (es p).cell, ?_, (h.good p y hy).cell⟩
      rw [List.getD_eq_getElem?_getD, h.ptr p y hy]
      rfl)
    refine ⟨{ w with mem := m' }, Function.update es v e', ?_, ?_⟩
    · unfold VarWorld.step
      simp only [h.rd hx, a1, ok_bind]
    · unfold Ledger.after
      simp only [Ledger.change_eq hx]
      exact h.changed hx a2 a3 a4 a5 a6 (h.older v x hx)
  | defaultPrior v =>
    obtain ⟨x, hx⟩ := ha
    have hw := h.within
    rw [owned_split hx] at hw
    obtain ⟨m', e', a1, a2, a3, a4, a5, a6⟩ := defaultPrior_spec hw (h.good v x hx) h.fails
    refine ⟨{ w with mem := m' }, Function.update es v e', ?_, ?_⟩
    · unfold VarWorld.step
      simp only [h.rd hx, a1, ok_bind]
    · unfold Ledger.after
      simp only [Ledger.change_eq hx]
      exact h.changed hx a2 a3 a4 a5 a6 (h.older v x hx)
  | free v =>
    obtain ⟨x, hx⟩ := ha
    have hw := h.within
    rw [owned_split hx] at hw
    obtain ⟨m', a1, a2, a3, a4⟩ := freeVariable_spec hw (h.good v x hx)
    refine ⟨{ w with mem := m' }, es, ?_, ?_⟩
    · unfold VarWorld.step
      simp only [h.rd hx, a1, ok_bind]
    · unfold Ledger.after
      simp only
      have key : ∀ (i : Nat) (z : Holding), (l.set v none)[i]? = some (some z) → l[i]? = some (some z) := by
        intro i z hz
        rw [List.getElem?_set] at hz
        split at hz
        · split at hz <;> simp at hz
        · exact hz
      refine ⟨by simpa using h.len, fun i z hz => h.ptr i z (key i z hz), fun i z hz => (h.good i z (key i z hz)).keep (a3.mono (owned_le hz es)), ?_, a2, by intro k; rw [a4]; exact h.fails k⟩
      intro i z hz p hp
      rw [List.length_set]
      exact h.older i z (key i z hz) p hp

theorem VarWorld.Inv.run {w : VarWorld} {l : Ledger} {es : Nat → Entry} (h : w.Inv l es) (calls : List VarCall) (ht : Tidy l calls) (hp : ∀ a ∈ calls, a.Plain) :
    ∃ w' es', w.run calls = ok w' ∧ VarWorld.Inv w' (l.final calls) es' := by
  induction calls generalizing w l es with
  | nil => exact ⟨w, es, rfl, h⟩
  | cons a calls ih =>
    obtain ⟨w1, es1, e1, e2⟩ := h.step ht.1 (hp a (by simp))
    obtain ⟨w2, es2, e3, e4⟩ := ih e2 ht.2 (fun b hb => hp b (by simp [hb]))
    exact ⟨w2, es2, by rw [VarWorld.run, e1, ok_bind, e3], e4⟩

theorem VarWorld.run_append (w : VarWorld) (h h' : List VarCall) : w.run (h ++ h') = (w.run h >>= fun w => w.run h') := by
  induction h generalizing w with
  | nil => rfl
  | cons a h ih =>
    rw [List.cons_append, VarWorld.run, VarWorld.run]
    cases w.step a with
    | ub => rfl
    | ok w1 => rw [ok_bind, ok_bind, ih]

/-! ### counting -/

theorem Memory.Within.count {m : Memory} {M : Multiset Nat} (h : m.Within M) : m.inUse = M.card := by
  have h1 : M.toFinset = ((List.range m.next).filter (fun b => (m.blocks b).isSome)).toFinset := by
    ext b
    simp only [Multiset.mem_toFinset, List.mem_toFinset, List.mem_filter, List.mem_range]
    rw [h.used b]
    exact ⟨fun hb => ⟨h.below b hb, hb⟩, fun hb => hb.2⟩
  unfold Memory.inUse
  rw [← List.toFinset_card_of_nodup (List.nodup_range.filter _), ← h1, Multiset.toFinset_card_of_nodup h.nodup]

theorem Ledger.blocks_eq (l : Ledger) : l.blocks = ∑ i ∈ Finset.range l.length, ((l.getD i none).map Holding.blocks).getD 0 := by
  unfold Ledger.blocks
  induction l with
  | nil => rfl
  | cons o l ih =>
    rw [List.map_cons, List.sum_cons, ih, List.length_cons, Finset.sum_range_succ']
    simp [add_comm]

theorem VarWorld.Inv.inUse {w : VarWorld} {l : Ledger} {es : Nat → Entry} (h : w.Inv l es) : w.mem.inUse = l.blocks := by
  rw [h.within.count, Ledger.blocks_eq]
  unfold owned
  rw [Multiset.card_sum]
  refine Finset.sum_congr rfl fun i hi => ?_
  have hi' := Finset.mem_range.1 hi
  rw [List.getD_eq_getElem?_getD, List.getElem?_eq_getElem hi', Option.getD_some]
  cases hx : l[i] with
  | none => simp
  | some x =>
    have := h.good i x (by rw [List.getElem?_eq_getElem hi', hx])
    simpa using this.count

theorem VarWorld.inv_empty {fails : Nat → Bool} (hf : ∀ k, fails k = false) : VarWorld.Inv { mem := Memory.empty fails, vars := [] } [] (fun _ => ⟨0, ⟨0, .null, .null, .null, .null, .null, .null, 0, .null⟩, []⟩) := by
  refine ⟨rfl, by simp, by simp, by simp, ⟨by simp [owned], by simp [owned, Memory.empty], by simp [owned]⟩, hf⟩

/-! ### what goes wrong -/

theorem loop_ok_inv {σ : Type} (P : Nat → σ → Prop) {f : Nat → σ → Res σ} {s s' : σ} {n : Nat} (h0 : P 0 s) (hf : ∀ i, i < n → ∀ x y, P i x → f i x = ok y → P (i + 1) y)
    (h : loop n f s = ok s') : P n s' := by
  induction n generalizing s' with
  | zero => cases h; exact h0
  | succ n ih =>
    rw [loop_succ] at h
    cases hl : loop n f s with
    | ub => rw [hl] at h; cases h
    | ok t =>
      rw [hl, ok_bind'] at h
      exact hf n (by omega) t s' (ih (fun i hi => hf i (by omega)) hl) h

theorem free_none {m m' : Memory} {a : Nat} (h : m.free (.block a) = ok m') : m'.blocks a = none := by
  unfold Memory.free at h
  simp only at h
  split at h
  · cases h
  · cases h; simp

theorem cell_none {m : Memory} {a : Nat} (h : m.blocks a = none) : m.cell (.block a) = ub := by
  unfold Memory.cell
  simp only [h]

theorem res_bind_ok {α β : Type} {x : Res α} {f : α → Res β} {b : β} (h : (x >>= f) = ok b) : ∃ a, x = ok a ∧ f a = ok b := by
  cases x with
  | ub => cases h
  | ok a => exact ⟨a, rfl, h⟩

theorem nameState_missing {m m' : Memory} {v i : Nat} {given : List Bool} (hi : i < given.length) (hg : given[i] = false) (h : Memory.nameState (.block v) given i m = ok m') :
    m'.blocks v = none := by
  unfold Memory.nameState at h
  obtain ⟨c, _, h⟩ := res_bind_ok h
  obtain ⟨row, _, h⟩ := res_bind_ok h
  obtain ⟨p, _, h⟩ := res_bind_ok h
  rw [rd_lt hi, ok_bind, hg] at h
  obtain ⟨⟨err, q, m1⟩, h1, h⟩ := res_bind_ok h
  have he : err = true := by
    unfold Memory.setText at h1
    simp only [Bool.false_eq_true, if_false] at h1
    cases h1
    rfl
  subst he
  obtain ⟨row', _, h⟩ := res_bind_ok h
  obtain ⟨m2, _, h⟩ := res_bind_ok h
  simp only [if_true] at h
  obtain ⟨m3, _, h⟩ := res_bind_ok h
  obtain ⟨m4, _, h⟩ := res_bind_ok h
  exact free_none h

/-- After the name of a state could not be put down the variable does not exist any more. -/
theorem nameStates_missing {m m' : Memory} {v : Nat} {given : List Bool} (hg : false ∈ given) (h : loop given.length (Memory.nameState (.block v) given) m = ok m') :
    m'.blocks v = none := by
  have key := loop_ok_inv (fun i (x : Memory) => (∀ j (hj : j < given.length), j < i → given[j] = true) ∨ x.blocks v = none) (Or.inl (by intro j _ hj; omega)) (by
    intro i hi x y hx hy
    rcases hx with hx | hx
    · cases hgi : given[i] with
      | false => exact Or.inr (nameState_missing hi hgi hy)
      | true =>
        left
        intro j hj hji
        rcases Nat.lt_succ_iff_lt_or_eq.1 hji with h1 | rfl
        · exact hx j hj h1
        · exact hgi
    · unfold Memory.nameState at hy
      rw [cell_none hx] at hy
      cases hy) h
  rcases key with key | key
  · obtain ⟨j, hj, e⟩ := List.mem_iff_getElem.1 hg
    rw [key j hj hj] at e
    cases e
  · exact key

theorem freeVariable_junk {m : Memory} {a : Nat} {c : VarCell} (h : m.blocks a = some (.cell c)) (hc : c.symbol = .junk) : m.freeVariable (.block a) = ub := by
  unfold Memory.freeVariable
  simp only [MemPtr.isNull, ok_bind, Bool.false_eq_true, if_false, cell_at h, hc, Memory.free, ub_bind]

theorem putCell_done {m m' : Memory} {p : MemPtr} {c : VarCell} (h : m.putCell p c = ok m') : ∃ a, p = .block a ∧ m'.blocks a = some (.cell c) := by
  unfold Memory.putCell at h
  split at h
  · rename_i a
    split at h
    · cases h
      exact ⟨a, rfl, by simp⟩
    · cases h
  · cases h

theorem newVariable_noStates {m : Memory} {M : Multiset Nat} (h : m.Within M) (hf : ∀ k, m.fails k = false) (symbol name : Bool) :
    ∃ p m', m.newVariable symbol name none = ok (p, m') ∧ m'.freeVariable p = ub := by
  obtain ⟨v, m1, a1, w1, b1, s1, f1⟩ := h.alloc hf (.cell { card := 0, symbol := .null, name := .junk, states := .junk, likelihood := .junk, prior := .null, parents := .null, nParents := 0, mapping := .null })
  obtain ⟨p, m2, a2, j2, c2, _, w2, s2, f2⟩ := w1.setText (by rw [f1]; exact hf) symbol
  obtain ⟨q, m3, a3, j3, c3, _, w3, s3, f3⟩ := w2.setText (by rw [f2, f1]; exact hf) name
  have b3 : m3.blocks v = m1.blocks v := by rw [s3 v (by simp), s2 v (by simp)]
  rw [b1] at b3
  have w3' : m3.Within ({v} + (q.blocks + p.blocks + M)) := w3.as (by abel)
  obtain ⟨m4, a4, w4, b4, s4, f4⟩ := w3'.putCell b3 { card := 0, symbol := p, name := q, states := .junk, likelihood := .junk, prior := .null, parents := .null, nParents := 0, mapping := .null }
  obtain ⟨m6, a6, w6, b6, s6, f6⟩ := w4.putCell b4 { card := 0, symbol := p, name := q, states := .junk, likelihood := .junk, prior := .null, parents := .null, nParents := 0, mapping := .null }
  obtain ⟨k, m8, a8, w8, b8, s8, f8⟩ := w6.alloc (by rw [f6, f4, f3, f2, f1]; exact hf) .raw
  have w8' : m8.Within ({v} + ({k} + (q.blocks + p.blocks + M))) := w8.as (by abel)
  obtain ⟨m9, a9, w9, b9, s9, f9⟩ := w8'.putCell (c := { card := 0, symbol := p, name := q, states := .junk, likelihood := .junk, prior := .null, parents := .null, nParents := 0, mapping := .null })
    (by rw [s8 v (by simp)]; exact b6) { card := 0, symbol := p, name := q, states := .junk, likelihood := .block k, prior := .null, parents := .null, nParents := 0, mapping := .null }
  refine ⟨.block v, m9, ?_, ?_⟩
  · unfold Memory.newVariable
    simp only [Option.getD_none, List.length_nil, Option.isSome_none, if_true, a1, a2, a3, a4, a6, a8, a9, ok_bind, cell_at b6, cell_at b9]
    simp [a1, a2, a3, a4, a6, a8, a9, ok_bind, cell_at b6, cell_at b9]
  · have w9' : m9.Within (p.blocks + (q.blocks + ({v} + ({k} + M)))) := w9.as (by abel)
    obtain ⟨x1, e1, y1, _, _⟩ := w9'.free j2
    obtain ⟨x2, e2, y2, _, _⟩ := y1.free j3
    unfold Memory.freeVariable
    simp only [MemPtr.isNull, ok_bind, Bool.false_eq_true, if_false, cell_at b9, e1, e2, ub_bind]

theorem newVariable_missing {m : Memory} {M : Multiset Nat} (h : m.Within M) (hf : ∀ k, m.fails k = false) (symbol name : Bool) {given : List Bool} (hg : false ∈ given) :
    m.newVariable symbol name (some given) = ub := by
  obtain ⟨v, m1, a1, w1, b1, s1, f1⟩ := h.alloc hf (.cell { card := given.length, symbol := .null, name := .junk, states := .junk, likelihood := .junk, prior := .null, parents := .null, nParents := 0, mapping := .null })
  obtain ⟨p, m2, a2, j2, c2, _, w2, s2, f2⟩ := w1.setText (by rw [f1]; exact hf) symbol
  obtain ⟨q, m3, a3, j3, c3, _, w3, s3, f3⟩ := w2.setText (by rw [f2, f1]; exact hf) name
  have b3 : m3.blocks v = m1.blocks v := by rw [s3 v (by simp), s2 v (by simp)]
  rw [b1] at b3
  have w3' : m3.Within ({v} + (q.blocks + p.blocks + M)) := w3.as (by abel)
  obtain ⟨m4, a4, w4, b4, s4, f4⟩ := w3'.putCell b3 { card := given.length, symbol := p, name := q, states := .junk, likelihood := .junk, prior := .null, parents := .null, nParents := 0, mapping := .null }
  obtain ⟨s, m5, a5, w5, b5, s5, f5⟩ := w4.alloc (by rw [f4, f3, f2, f1]; exact hf) (.ptrs (List.replicate given.length .null))
  have w5' : m5.Within ({v} + ({s} + (q.blocks + p.blocks + M))) := w5.as (by abel)
  obtain ⟨m6, a6, w6, b6, s6, f6⟩ := w5'.putCell (c := { card := given.length, symbol := p, name := q, states := .junk, likelihood := .junk, prior := .null, parents := .null, nParents := 0, mapping := .null })
    (by rw [s5 v (by simp)]; exact b4) { card := given.length, symbol := p, name := q, states := .block s, likelihood := .junk, prior := .null, parents := .null, nParents := 0, mapping := .null }
  unfold Memory.newVariable
  simp only [Option.getD_some, Option.isSome_some, if_true, a1, a2, a3, a4, a5, a6, ok_bind]
  cases hl : loop given.length (Memory.nameState (.block v) given) m6 with
  | ub => simp [a2, a3, a4, a5, a6, hl]
  | ok m7 => simp [a2, a3, a4, a5, a6, hl, cell_none (nameStates_missing hg hl)]

end Nip
