import Verif.VariableMemoryLemmas

/-!
# C97: the memory of variables

`Verif/Spec/VariableMemory.lean` says which blocks of memory the variables need; `Verif/VariableMemory.lean` is the code.
-/

namespace Nip.Props

open Nip Res Spec

/-- no allocation fails -/
abbrev plenty : Nat → Bool := fun _ => false

/-- nothing has happened yet -/
abbrev nothingYet (fails : Nat → Bool) : VarWorld := { mem := Memory.empty fails, vars := [] }

/-- The full claim: after every history of calls that use only variables that exist, the blocks in use are those that the variables need; and if allocations fail while a
variable is created, then what was created can be freed, and nothing is left.  It is false of the code (`C97_refuted`). -/
def C97_full : Prop :=
  (∀ calls, Tidy [] calls → ∃ w, (nothingYet plenty).run calls = ok w ∧ w.mem.inUse = (Ledger.final [] calls).blocks) ∧
  ∀ fails symbol name states, ∃ p m m', (Memory.empty fails).newVariable symbol name states = ok (p, m) ∧ m.freeVariable p = ok m' ∧ m'.inUse = 0

/-- What holds: if no allocation fails, nothing is copied and the names of all states are given, then after every history of calls that use only variables that exist nothing
has gone wrong (nothing was used before it was set or after it was freed, and nothing was freed twice), and the blocks in use are those that the variables need.  Missing: copies,
variables without (all) names of states, and allocations that fail; there it is false. -/
theorem C97_memory_partial (calls : List VarCall) (ht : Tidy [] calls) (hp : ∀ a ∈ calls, a.Plain) :
    ∃ w, (nothingYet plenty).run calls = ok w ∧ w.mem.inUse = (Ledger.final [] calls).blocks := by
  obtain ⟨w, es, e1, e2⟩ := (VarWorld.inv_empty (fails := plenty) (fun _ => rfl)).run calls ht hp
  exact ⟨w, e1, e2.inUse⟩

/-- When all variables have been freed, no memory is in use. -/
theorem C97_freed_partial (calls : List VarCall) (ht : Tidy [] calls) (hp : ∀ a ∈ calls, a.Plain) (hall : ∀ o ∈ Ledger.final [] calls, o = none) :
    ∃ w, (nothingYet plenty).run calls = ok w ∧ w.mem.inUse = 0 := by
  obtain ⟨w, e1, e2⟩ := C97_memory_partial calls ht hp
  refine ⟨w, e1, ?_⟩
  rw [e2]
  unfold Ledger.blocks
  rw [List.map_congr_left (g := fun _ => 0) (fun o ho => by rw [hall o ho]; rfl)]
  simp

/-- A text is replaced: the old one is freed, the new one is in use, and nothing else changes; if the allocation fails, there is an error and no text, but nothing is used later on that
was freed. -/
theorem C97_text (m : Memory) (a : Nat) (b : MemBlock) (ha : m.blocks a = some b) (hnew : a < m.next) :
    ∃ p m', m.setText (.block a) true = ok (m.fails m.next, p, m') ∧ m'.blocks a = none ∧ (∀ x, x ≠ a → x ≠ m.next → m'.blocks x = m.blocks x) ∧
      (m.fails m.next = false → p = .block m.next ∧ m'.blocks m.next = some .raw) ∧ (m.fails m.next = true → p = .null ∧ m'.blocks m.next = m.blocks m.next) := by
  have hne : m.next ≠ a := by omega
  unfold Memory.setText Memory.free Memory.alloc
  cases h : m.fails m.next with
  | true =>
    refine ⟨.null, _, by simp [MemPtr.isNull, ha, h]; rfl, ?_, ?_, by simp, ?_⟩
    · simp
    · intro x h1 _
      simp [h1]
    · simp [hne]
  | false =>
    refine ⟨.block m.next, _, by simp [MemPtr.isNull, ha, h]; rfl, ?_, ?_, ?_, by simp⟩
    · simp [Function.update_of_ne hne.symm]
    · intro x h1 h2
      simp [h1, h2]
    · simp

/-- Copies: whatever the memory, copying a variable that has a name frees a pointer that was never set; and a copy that was made cannot be freed. -/
theorem C97_copy_refuted (m : Memory) (v : Nat) (c : VarCell) (hv : m.blocks v = some (.cell c)) (hnew : v < m.next) :
    (∀ b, c.name = .block b → m.fails m.next = false → m.copyVariable (.block v) = ub) ∧
    ∀ p m', m.copyVariable (.block v) = ok (p, m') → p ≠ .null → m'.freeVariable p = ub := by
  have hcell : ∀ x, Function.update m.blocks m.next x v = some (.cell c) := fun x => by rw [Function.update_of_ne (by omega)]; exact hv
  constructor
  · intro b hb hf
    unfold Memory.copyVariable Memory.alloc
    simp only [MemPtr.isNull, ok_bind, hf, Bool.false_eq_true, if_false]
    rw [if_neg (by simp)]
    rw [cell_at (c := c) (hcell _), ok_bind, hb]
    simp only [MemPtr.isNull, ok_bind, Memory.setText, Bool.not_false, if_true, ub_bind]
  · intro p m' h hp
    unfold Memory.copyVariable at h
    simp only [MemPtr.isNull, ok_bind, Bool.false_eq_true, if_false] at h
    split at h
    · cases h; exact absurd rfl hp
    · obtain ⟨x, hx, h⟩ := res_bind_ok h
      cases hname : x.name with
      | junk => simp [hname] at h
      | block b => simp [hname, MemPtr.isNull, Memory.setText] at h
      | null =>
        simp only [hname, MemPtr.isNull, ok_bind, Memory.setText, Bool.not_true, Bool.false_eq_true, if_false] at h
        clear hx
        obtain ⟨alone, _, h⟩ := res_bind_ok h
        split at h
        · obtain ⟨m1, _, h⟩ := res_bind_ok h
          split at h
          · obtain ⟨m2, _, h⟩ := res_bind_ok h
            cases h
            exact absurd rfl hp
          · obtain ⟨m2, h2, h⟩ := res_bind_ok h
            split at h
            · obtain ⟨m3, _, h⟩ := res_bind_ok h
              obtain ⟨m4, _, h⟩ := res_bind_ok h
              cases h
              exact absurd rfl hp
            · obtain ⟨a, ha, hb⟩ := putCell_done h2
              rw [ha] at h
              cases h
              exact freeVariable_junk hb rfl
        · obtain ⟨l, _, h⟩ := res_bind_ok h
          obtain ⟨m1, _, h⟩ := res_bind_ok h
          split at h
          · obtain ⟨m2, _, h⟩ := res_bind_ok h
            cases h
            exact absurd rfl hp
          · obtain ⟨m2, h2, h⟩ := res_bind_ok h
            split at h
            · obtain ⟨m3, _, h⟩ := res_bind_ok h
              obtain ⟨m4, _, h⟩ := res_bind_ok h
              cases h
              exact absurd rfl hp
            · obtain ⟨a, ha, hb⟩ := putCell_done h2
              rw [ha] at h
              cases h
              exact freeVariable_junk hb rfl

/-- The name of a state is NULL: whatever has happened before (in the ways of `C97_memory_partial`), memory that was freed is used. -/
theorem C97_null_state_refuted (calls : List VarCall) (ht : Tidy [] calls) (hp : ∀ a ∈ calls, a.Plain) (symbol name : Bool) (given : List Bool) (hg : false ∈ given) :
    (nothingYet plenty).run (calls ++ [.create symbol name (some given)]) = ub := by
  obtain ⟨w, es, e1, e2⟩ := (VarWorld.inv_empty (fails := plenty) (fun _ => rfl)).run calls ht hp
  rw [VarWorld.run_append, e1, ok_bind]
  simp [VarWorld.run, VarWorld.step, newVariable_missing e2.within e2.fails symbol name hg]

/-- No names of states are given: the variable is created, but to free it a pointer that was never set is used. -/
theorem C97_no_states_refuted (calls : List VarCall) (ht : Tidy [] calls) (hp : ∀ a ∈ calls, a.Plain) (symbol name : Bool) :
    ∃ w, (nothingYet plenty).run (calls ++ [.create symbol name none]) = ok w ∧ w.step (.free (Ledger.final [] calls).length) = ub := by
  obtain ⟨w, es, e1, e2⟩ := (VarWorld.inv_empty (fails := plenty) (fun _ => rfl)).run calls ht hp
  obtain ⟨p, m', e3, e4⟩ := newVariable_noStates e2.within e2.fails symbol name
  refine ⟨{ mem := m', vars := w.vars ++ [p] }, ?_, ?_⟩
  · rw [VarWorld.run_append, e1, ok_bind]
    simp [VarWorld.run, VarWorld.step, e3]
  · unfold VarWorld.step
    simp only
    rw [← e2.len, rd_lt (by simp), ok_bind]
    simp [e4]

/-- one allocation fails -/
abbrev oneFails (k : Nat) : Nat → Bool := fun i => i == k

/-- The allocation of the likelihood fails: memory that was freed is used. -/
theorem C97_likelihood_refuted : (Memory.empty (oneFails 6)).newVariable true true (some [true, true]) = ub := rfl

/-- The allocation of the name of a state fails: memory that was freed is used. -/
theorem C97_name_refuted : (Memory.empty (oneFails 5)).newVariable true true (some [true, true]) = ub := rfl

/-- The allocation of the array of names fails: NULL is returned, but the symbol and the name stay in memory. -/
theorem C97_leak_refuted : ∃ m, (Memory.empty (oneFails 3)).newVariable true true (some [true, true]) = ok (.null, m) ∧ m.freeVariable .null = ok m ∧ m.inUse = 2 :=
  ⟨_, rfl, rfl, by decide⟩

/-- So the claim is false, in both parts. -/
theorem C97_refuted : ¬ C97_full ∧
    (¬ ∀ calls, Tidy [] calls → ∃ w, (nothingYet plenty).run calls = ok w) ∧
    ¬ ∀ fails symbol name states, ∃ p m m', (Memory.empty fails).newVariable symbol name states = ok (p, m) ∧ m.freeVariable p = ok m' ∧ m'.inUse = 0 := by
  have h1 : ¬ ∀ calls, Tidy [] calls → ∃ w, (nothingYet plenty).run calls = ok w := by
    intro h
    obtain ⟨w, hw⟩ := h [.create true true (some [true, true]), .copy 0] ⟨trivial, ⟨_, rfl⟩, trivial⟩
    have : (nothingYet plenty).run [.create true true (some [true, true]), .copy 0] = ub := rfl
    rw [this] at hw
    cases hw
  have h2 : ¬ ∀ fails symbol name states, ∃ p m m', (Memory.empty fails).newVariable symbol name states = ok (p, m) ∧ m.freeVariable p = ok m' ∧ m'.inUse = 0 := by
    intro h
    obtain ⟨p, m, m', e1, e2, e3⟩ := h (oneFails 6) true true (some [true, true])
    rw [C97_likelihood_refuted] at e1
    cases e1
  exact ⟨fun h => h1 fun calls hc => (h.1 calls hc).imp fun _ h => h.1, h1, h2⟩

/-- a history: two variables, the second has the first as parent -/
def twoVariables : List VarCall :=
  [.create true true (some [true, true]), .create true false (some [true, true, true]), .parents 1 [0], .prior 0 true, .prior 0 true, .mapping 1, .defaultPrior 0, .free 0, .parents 1 [],
    .defaultPrior 1]

theorem twoVariables_tidy : Tidy [] twoVariables := by
  refine ⟨trivial, trivial, ⟨⟨_, rfl⟩, ?_⟩, ⟨_, rfl⟩, ⟨_, rfl⟩, ⟨⟨_, rfl⟩, ?_⟩, ⟨_, rfl⟩, ⟨_, rfl⟩, ⟨⟨_, rfl⟩, ?_⟩, ⟨_, rfl⟩, trivial⟩
  · intro p hp
    rw [List.mem_singleton.1 hp]
    exact ⟨_, rfl⟩
  · intro x hx p hp
    cases hx
    rw [List.mem_singleton.1 hp]
    exact ⟨_, rfl⟩
  · intro p hp
    cases hp

theorem twoVariables_plain : ∀ a ∈ twoVariables, a.Plain := by
  intro a ha
  simp only [twoVariables, List.mem_cons, List.not_mem_nil, or_false] at ha
  rcases ha with rfl | rfl | rfl | rfl | rfl | rfl | rfl | rfl | rfl | rfl <;> first | exact ⟨_, rfl, by simp⟩ | trivial

/-- The hypotheses can be met: fourteen blocks after the first two calls… -/
example : ∃ w, (nothingYet plenty).run (twoVariables.take 2) = ok w ∧ w.mem.inUse = 14 := by
  refine C97_memory_partial _ ⟨trivial, trivial, trivial⟩ ?_
  intro a ha
  exact twoVariables_plain a (List.mem_of_mem_take ha)

/-- …and in the end those of the second variable, with default prior probabilities and places. -/
example : ∃ w, (nothingYet plenty).run twoVariables = ok w ∧ w.mem.inUse = 9 :=
  C97_memory_partial _ twoVariables_tidy twoVariables_plain

/-- Nothing is left when both are freed. -/
example : ∃ w, (nothingYet plenty).run (twoVariables ++ [.free 1]) = ok w ∧ w.mem.inUse = 0 := by
  refine C97_freed_partial _ ?_ ?_ (by decide)
  · refine ⟨trivial, trivial, ⟨⟨_, rfl⟩, ?_⟩, ⟨_, rfl⟩, ⟨_, rfl⟩, ⟨⟨_, rfl⟩, ?_⟩, ⟨_, rfl⟩, ⟨_, rfl⟩, ⟨⟨_, rfl⟩, ?_⟩, ⟨_, rfl⟩, ⟨_, rfl⟩, trivial⟩
    · intro p hp
      rw [List.mem_singleton.1 hp]
      exact ⟨_, rfl⟩
    · intro x hx p hp
      cases hx
      rw [List.mem_singleton.1 hp]
      exact ⟨_, rfl⟩
    · intro p hp
      cases hp
  · intro a ha
    rcases List.mem_append.1 ha with h | h
    · exact twoVariables_plain a h
    · rw [List.mem_singleton.1 h]
      trivial

/-- a text to replace: the name of the variable -/
example : ∃ w, (nothingYet plenty).run [.create true true (some [true])] = ok w ∧ w.mem.blocks 2 = some .raw ∧ 2 < w.mem.next := ⟨_, rfl, rfl, by decide⟩

/-- a named and an unnamed variable to copy -/
example : ∃ w c b, (nothingYet plenty).run [.create true true (some [true])] = ok w ∧ w.mem.blocks 0 = some (.cell c) ∧ 0 < w.mem.next ∧ c.name = .block b :=
  ⟨_, _, _, rfl, rfl, by decide, rfl⟩

example : ∃ w p m', (nothingYet plenty).run [.create true false (some [true])] = ok w ∧ w.mem.copyVariable (.block 0) = ok (p, m') ∧ p ≠ .null :=
  ⟨_, _, _, rfl, rfl, by decide⟩

end Nip.Props
