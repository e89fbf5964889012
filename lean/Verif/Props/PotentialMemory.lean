import Verif.PotentialMemoryLemmas

/-!
# C102: the memory of potentials and their properties

`Verif/Spec/PotentialMemory.lean` says which blocks of memory the potentials need and what the answers are; `Verif/PotentialMemory.lean` is the code.
-/

namespace Nip.Props

open Nip Res Spec

/-- no allocation fails -/
abbrev ample : Nat → Bool := fun _ => false

/-- No allocation fails.  After every history of calls that use only potentials that exist (or NULL) and arrays that are long enough nothing has gone wrong (nothing was used before it was
set or after it was freed, and nothing was freed twice), the blocks in use are those that the potentials need, and each question was answered with the value that was first written
under the key. -/
theorem C102_memory (calls : List PotCall) (ht : PotTidy [] calls) :
    ∃ w, (PotWorld.start ample).run calls = ok w ∧ w.mem.inUse = (PotLedger.final [] calls).blocks ∧ w.answers = PotLedger.answers [] calls := by
  obtain ⟨w, es, e1, e2, e3⟩ := (PotWorld.inv_start (fails := ample) (fun _ => rfl)).run calls ht
  exact ⟨w, e1, e2.inUse, by simpa [PotWorld.start] using e3⟩

/-- When all potentials have been freed, no memory is in use. -/
theorem C102_freed (calls : List PotCall) (ht : PotTidy [] calls) (hall : ∀ ps, PotRecord.here ps ∉ PotLedger.final [] calls) :
    ∃ w, (PotWorld.start ample).run calls = ok w ∧ w.mem.inUse = 0 := by
  obtain ⟨w, e1, e2, _⟩ := C102_memory calls ht
  refine ⟨w, e1, ?_⟩
  rw [e2]
  unfold PotLedger.blocks
  rw [List.map_congr_left (g := fun _ => 0) (fun r hr => by
    cases r with
    | here ps => exact absurd hr (hall ps)
    | refused => rfl
    | freed => rfl)]
  simp

/-- Two potentials, one a copy of the other, with properties, one of them written twice. -/
def twoPotentials : List PotCall :=
  [.create [2, 3] 2 none, .property 0 (some "colour") (some "red"), .property 0 (some "shape") (some "round"), .property 0 (some "colour") (some "blue"), .copy 0, .ask 0 (some "colour"),
    .ask 1 (some "colour"), .property 1 none (some "x"), .create [] (-1) none, .property 2 (some "a") (some "b"), .free 0, .ask 1 (some "shape")]

theorem twoPotentials_tidy : PotTidy [] twoPotentials := by
  simp [twoPotentials, PotTidy, PotCall.Allowed, PotLedger.Known, PotLedger.after, List.modify_cons]

example : ∃ w, (PotWorld.start ample).run twoPotentials = ok w ∧ w.mem.inUse = 5 ∧ w.answers = [some "red", none, none] := C102_memory _ twoPotentials_tidy

example : ∃ w, (PotWorld.start ample).run (twoPotentials.take 5) = ok w ∧ w.mem.inUse = 19 ∧ w.answers = [] :=
  C102_memory (twoPotentials.take 5) (by simp [twoPotentials, PotTidy, PotCall.Allowed, PotLedger.Known, PotLedger.after, List.modify_cons])

example : ∃ w, (PotWorld.start ample).run (twoPotentials ++ [.free 1, .free 2]) = ok w ∧ w.mem.inUse = 0 :=
  C102_freed _ (by simp [twoPotentials, PotTidy, PotCall.Allowed, PotLedger.Known, PotLedger.after, List.modify_cons])
    (by simp [twoPotentials, PotLedger.final, PotLedger.after, List.modify_cons])

/-- Allocations may fail.  In memory of any contents a property is written to a potential that was created by an earlier history: the property is there, or nothing has changed; in both
cases nothing else has been lost or freed. -/
theorem C102_property (calls : List PotCall) (ht : PotTidy [] calls) (v : Nat) (ps : List (String × String)) (hv : (PotLedger.final [] calls)[v]? = some (.here ps)) (fails : Nat → Bool)
    (key value : String) : ∃ w p m' qs, (PotWorld.start ample).run calls = ok w ∧ w.pots[v]? = some p ∧
      Store.writeProperty { w.mem with fails := fails } p (some key) (some value) = ok m' ∧ (qs = ps ∨ qs = ps ++ [(key, value)]) ∧
      m'.inUse + (PotRecord.here ps).blocks = w.mem.inUse + (PotRecord.here qs).blocks ∧
      (∀ k, m'.readProperty p (some k) = ok (firstValue qs k)) ∧
      ∀ u qs', u ≠ v → (PotLedger.final [] calls)[u]? = some (.here qs') → ∃ q, w.pots[u]? = some q ∧ ∀ k, m'.readProperty q (some k) = ok (firstValue qs' k) := by
  obtain ⟨w, es, e1, e2, _⟩ := (PotWorld.inv_start (fails := ample) (fun _ => rfl)).run calls ht
  have hw := e2.within
  rw [potOwned_split hv] at hw
  have hw' : Store.Within { w.mem with fails := fails } ((es v).blocks + potOwned ((PotLedger.final [] calls).set v .freed) es) := ⟨hw.nodup, hw.used, hw.below⟩
  have g := e2.good v ps hv
  have hg : (es v).Good { w.mem with fails := fails } ps := g.keep (fun _ _ => rfl)
  obtain ⟨e', m', qs, a1, a2, a3, a4, a5, a6⟩ := writeProperty_any hw' hg key value
  refine ⟨w, .block (es v).addr, m', qs, e1, e2.ptr v ps hv, a1, a6, ?_, ?_, ?_⟩
  · rw [a2.count, hw.count, Multiset.card_add, Multiset.card_add, a5.count, g.count]
    omega
  · intro k
    rw [← a4]
    exact readProperty_spec a5 k
  · intro u qs' hne hu
    refine ⟨_, e2.ptr u qs' hu, fun k => readProperty_spec ?_ k⟩
    have hu' : ((PotLedger.final [] calls).set v .freed)[u]? = some (.here qs') := by
      rw [List.getElem?_set, if_neg (Ne.symm hne)]
      exact hu
    have : (es u).Good { w.mem with fails := fails } qs' := (e2.good u qs' hu).keep (fun _ _ => rfl)
    exact this.keep (a3.mono (potOwned_le hu' es))

example : ∃ w p m' qs, (PotWorld.start ample).run (twoPotentials.take 5) = ok w ∧ w.pots[0]? = some p ∧
    Store.writeProperty { w.mem with fails := fun k => k % 2 == 0 } p (some "colour") (some "green") = ok m' ∧
    (qs = [("colour", "red"), ("shape", "round"), ("colour", "blue")] ∨ qs = [("colour", "red"), ("shape", "round"), ("colour", "blue"), ("colour", "green")]) ∧
    ∀ k, m'.readProperty p (some k) = ok (firstValue qs k) := by
  obtain ⟨w, p, m', qs, h1, h2, h3, h4, _, h6, _⟩ := C102_property (twoPotentials.take 5)
    (by simp [twoPotentials, PotTidy, PotCall.Allowed, PotLedger.Known, PotLedger.after, List.modify_cons]) 0 [("colour", "red"), ("shape", "round"), ("colour", "blue")] rfl
    (fun k => k % 2 == 0) "colour" "green"
  exact ⟨w, p, m', qs, h1, h2, h3, h4, h6⟩

/-- An allocation fails while a potential is created.  If it is the one for the structure, or that for the temporary indices, the answer is NULL and memory is as before. -/
theorem C102_creation_refused (m : PotMemory) (hm : ∀ b, m.next ≤ b → m.blocks b = none) (card : List Nat) (dimension : Int) (h0 : 0 ≤ dimension) (data : Option Nat)
    (hf : m.fails m.next = true ∨ m.fails (m.next + 2) = true) :
    ∃ m', m.newPotential card dimension data = ok (.null, m') ∧ m'.blocks = m.blocks := by
  have hw := Store.within_used hm
  cases c0 : m.fails m.next with
  | true =>
    obtain ⟨m', a1, a2, a3⟩ := newPotential_noStruct hw card (by omega : ¬ dimension < 0) data c0
    exact ⟨m', a1, a3.all hw a2⟩
  | false =>
    have c2 : m.fails (m.next + 2) = true := by simpa [c0] using hf
    obtain ⟨m', a1, a2, a3⟩ := newPotential_noIndex hw card (by omega : ¬ dimension < 0) data c0 (Or.inr c2)
    rw [c2, if_pos rfl, zero_add] at a2
    exact ⟨m', a1, a3.all hw a2⟩

/-- If it is the one for the cardinalities, and there is memory for the temporary indices, the answer is NULL, but a block of memory is lost. -/
theorem C102_lost (m : PotMemory) (hm : ∀ b, m.next ≤ b → m.blocks b = none) (card : List Nat) (dimension : Int) (h0 : 0 ≤ dimension) (data : Option Nat)
    (c0 : m.fails m.next = false) (c1 : m.fails (m.next + 1) = true) (c2 : m.fails (m.next + 2) = false) :
    ∃ m', m.newPotential card dimension data = ok (.null, m') ∧ m'.inUse = m.inUse + 1 := by
  have hw := Store.within_used hm
  obtain ⟨m', a1, a2, a3⟩ := newPotential_noIndex hw card (by omega : ¬ dimension < 0) data c0 (Or.inl c1)
  refine ⟨m', a1, ?_⟩
  rw [c2] at a2
  rw [a2.count, hw.count]
  simp [add_comm]

/-- If it is the one for the numbers, a pointer is used that was never set. -/
theorem C102_undefined (m : PotMemory) (hm : ∀ b, m.next ≤ b → m.blocks b = none) (card : List Nat) (dimension : Int) (h0 : 0 ≤ dimension) (hd : dimension.toNat ≤ card.length)
    (data : Option Nat) (c0 : m.fails m.next = false) (c1 : m.fails (m.next + 1) = false) (c2 : m.fails (m.next + 2) = false) (c3 : m.fails (m.next + 3) = true) :
    m.newPotential card dimension data = ub :=
  newPotential_noData (Store.within_used hm) (by omega) hd data c0 c1 c2 c3

/-- If it is the one for the list, the answer is a potential that refuses properties, has none, and can be freed. -/
theorem C102_no_list (m : PotMemory) (hm : ∀ b, m.next ≤ b → m.blocks b = none) (card : List Nat) (dimension : Int) (h0 : 0 ≤ dimension) (hd : dimension.toNat ≤ card.length)
    (data : Option Nat) (hn : ∀ n, data = some n → (card.take dimension.toNat).prod ≤ n)
    (c0 : m.fails m.next = false) (c1 : m.fails (m.next + 1) = false) (c2 : m.fails (m.next + 2) = false) (c3 : m.fails (m.next + 3) = false) (c4 : m.fails (m.next + 4) = true) :
    ∃ p m' m'', m.newPotential card dimension data = ok (.block p, m') ∧ m'.inUse = m.inUse + 4 ∧ m'.freePotential (.block p) = ok m'' ∧ m''.blocks = m.blocks ∧
      (∀ k x, m'.setProperty (.block p) (.block k) (.block x) = ok (true, m')) ∧ ∀ k, m'.getProperty (.block p) k = ok .null := by
  have hw := Store.within_used hm
  obtain ⟨p, c, t, a, cell, m', a1, a2, a3, a4, h1, h2, h3, h4⟩ := newPotential_noList hw (by omega : ¬ dimension < 0) hd hn c0 c1 c2 c3 c4
  obtain ⟨m'', b1, b2, b3⟩ := freePotential_noList a2 a4 h1 h2 h3 h4
  refine ⟨p, m', m'', a1, ?_, b1, ?_, ?_, ?_⟩
  · rw [a2.count, hw.count]
    simp only [Multiset.card_add, Multiset.card_singleton]
    omega
  · refine Store.SameOn.all hw (fun b hb => ?_) b2
    rw [b3 b hb, a3 b hb]
  · intro k x
    unfold Store.setProperty Store.appendPair
    simp only [MemPtr.isNull, ok_bind, Bool.false_eq_true, if_false, Bool.or_false, Store.potentialAt_eq a4, h4, Bool.true_or, if_true]
  · intro k
    unfold Store.getProperty
    cases k with
    | none => simp [MemPtr.isNull]
    | some k => simp [MemPtr.isNull, Store.potentialAt_eq a4, h4]

/-- the memory in which only allocation `k` fails -/
abbrev failing (k : Nat) : PotMemory := Store.empty (fun j => j == k)

example : ∃ m', (failing 2).newPotential [2, 3] 2 none = ok (.null, m') ∧ m'.blocks = (failing 2).blocks :=
  C102_creation_refused _ (fun _ _ => rfl) _ _ (by decide) _ (Or.inr rfl)

example : ∃ m', (failing 1).newPotential [2, 3] 2 none = ok (.null, m') ∧ m'.inUse = 1 := C102_lost _ (fun _ _ => rfl) _ _ (by decide) _ rfl rfl rfl

example : (failing 3).newPotential [2, 3] 2 (some 6) = ub := C102_undefined _ (fun _ _ => rfl) _ _ (by decide) (by decide) _ rfl rfl rfl rfl

example : ∃ p m' m'', (failing 4).newPotential [2, 3] 2 (some 6) = ok (.block p, m') ∧ m'.inUse = 4 ∧ m'.freePotential (.block p) = ok m'' ∧ m''.blocks = (failing 4).blocks := by
  obtain ⟨p, m', m'', h1, h2, h3, h4, _⟩ := C102_no_list (failing 4) (fun _ _ => rfl) [2, 3] 2 (by decide) (by decide) (some 6) (by rintro n ⟨⟩; decide) rfl rfl rfl rfl rfl
  exact ⟨p, m', m'', h1, h2, h3, h4⟩

end Nip.Props
