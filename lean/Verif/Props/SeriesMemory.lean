import Verif.SeriesMemoryWorld
import Verif.Props.PotentialMemory

/-!
# C106: the memory of time series and of the results of inference

`Verif/Spec/SeriesMemory.lean` says which blocks of memory series and results need; `Verif/SeriesMemory.lean` is the code.
-/

namespace Nip.Props

open Nip Res Spec

/-- No allocation fails.  After every history of calls that use only series and results that exist nothing has gone wrong (nothing was used before it was set or after it was freed,
and nothing was freed twice), and the blocks in use are those that the series and results need, also when messages could not be passed. -/
theorem C106_memory (calls : List SeriesCall) (ht : SeriesTidy [] calls) :
    ∃ w, (SeriesWorld.start ample).run calls = ok w ∧ w.mem.inUse = (SeriesLedger.final [] calls).blocks := by
  obtain ⟨w, O, e1, e2⟩ := (SeriesWorld.inv_start (fails := ample) (fun _ => rfl)).run calls ht
  exact ⟨w, e1, e2.inUse⟩

/-- When all has been freed, no memory is in use. -/
theorem C106_freed (calls : List SeriesCall) (ht : SeriesTidy [] calls) (hall : ∀ r ∈ SeriesLedger.final [] calls, r = .freed ∨ r = .nothing) :
    ∃ w, (SeriesWorld.start ample).run calls = ok w ∧ w.mem.inUse = 0 := by
  obtain ⟨w, e1, e2⟩ := C106_memory calls ht
  refine ⟨w, e1, ?_⟩
  rw [e2]
  unfold SeriesLedger.blocks
  rw [List.map_congr_left (g := fun _ => 0) (fun r hr => by rcases hall r hr with rfl | rfl <;> rfl)]
  simp

/-- two series with three columns, of which two are variables of the model -/
def twoSeries : FileShape := { known := [true, false, true], series := [[3, 3], [3, 2, 1]] }

/-- It is read; inference of all kinds, once with an error; part of it is freed. -/
def manyCalls : List SeriesCall :=
  [.read 5 twoSeries, .filter 2 [2, 3] 1 true, .smooth 2 [4] 2 true, .filter 0 [2, 2, 2] 2 false, .mlss 5 3 2, .freeSeries 1, .freeArray 0, .freeResults 5, .smooth 1 [] 6 true]

theorem manyCalls_tidy : SeriesTidy [] manyCalls := by
  simp [manyCalls, twoSeries, SeriesTidy, SeriesCall.Allowed, SeriesLedger.after, SeriesLedger.lengthOf, FileShape.records, FileShape.observed, List.modify_cons]

example : ∃ w, (SeriesWorld.start ample).run manyCalls = ok w ∧ w.mem.inUse = 38 := C106_memory _ manyCalls_tidy

example : ∃ w, (SeriesWorld.start ample).run (manyCalls ++ [.freeSeries 2, .freeSeries 6, .freeResults 3, .freeResults 4, .freeResults 7]) = ok w ∧ w.mem.inUse = 0 :=
  C106_freed _ (by simp [manyCalls, twoSeries, SeriesTidy, SeriesCall.Allowed, SeriesLedger.after, SeriesLedger.lengthOf, FileShape.records, FileShape.observed, List.modify_cons])
    (by simp [manyCalls, twoSeries, SeriesLedger.final, SeriesLedger.after, SeriesLedger.lengthOf, FileShape.records, FileShape.observed, List.modify_cons])

/-- There are results for `vars` variables and `length` steps, with an array of numbers for each variable at each step. -/
def CompleteResults (m : SeriesMemory) (p : MemPtr) (vars length : Nat) : Prop :=
  ∃ c, m.resultsAt p = ok c ∧ c.vars = vars ∧ c.length = length ∧ ∀ t < length, ∃ s, m.entryAt c.data t = ok s ∧ ∀ i < vars, ∃ b, m.entryAt s i = ok (.block b)

/-- There is a series of `length` steps, with an array of numbers for each. -/
def CompleteSeries (m : SeriesMemory) (p : MemPtr) (length : Nat) : Prop :=
  ∃ c, m.seriesAt p = ok c ∧ c.length = length ∧ ∀ t < length, ∃ b, m.entryAt c.data t = ok (.block b)

/-- Everything that was in memory is still there, unchanged. -/
def Untouched (m m' : SeriesMemory) : Prop := ∀ b x, m.blocks b = some x → m'.blocks b = some x

theorem complete_results {m : SeriesMemory} {e : REntry} {k n : Nat} (h : e.Good m k n) : CompleteResults m (.block e.addr) k n := by
  refine ⟨_, Store.resultsAt_eq h.cell, rfl, rfl, fun t ht => ?_⟩
  have hl : t < e.table.length := by rw [h.length]; exact ht
  refine ⟨.block e.table[t].1, ?_, fun i hi => ?_⟩
  · rw [Store.entryAt_eq h.data (by simpa [stepPtrs] using hl)]
    simp [stepPtrs]
  · obtain ⟨h1, h2, h3⟩ := h.table _ (List.getElem_mem hl)
    have hi' : i < e.table[t].2.length := by rw [h2]; exact hi
    obtain ⟨b, hb⟩ := h3 _ (List.getElem_mem hi')
    exact ⟨b, by rw [Store.entryAt_eq h1 hi', hb]⟩

theorem complete_series {m : SeriesMemory} {e : SEntry} {n : Nat} (h : e.Good m n true) : CompleteSeries m (.block e.addr) n := by
  obtain ⟨_, ⟨a, h2, h3⟩, h4, h5⟩ := h.data rfl
  refine ⟨_, Store.seriesAt_eq h.cell, rfl, fun t ht => ?_⟩
  have hl : t < e.rows.length := by rw [h4]; exact ht
  obtain ⟨b, hb⟩ := h5 _ (List.getElem_mem hl)
  refine ⟨b, ?_⟩
  simp only [h2]
  rw [Store.entryAt_eq h3 hl, hb]

theorem untouched_of {m m' : SeriesMemory} {M : Multiset Nat} (h : m.Within M) (hk : m.Keeps m' M) : Untouched m m' := by
  intro b x hb
  rw [hk.same b ((h.used b).1 (by rw [hb]; rfl)), hb]

/-- Allocations may fail, anywhere.  Filtering gives NULL with memory as before, or complete results that can be freed, after which memory is as before; NULL only if an allocation
fails or messages cannot be passed. -/
theorem C106_filter (m : SeriesMemory) (hm : ∀ b, m.next ≤ b → m.blocks b = none) (interface : Nat) (cards : List Nat) (ts : MemPtr) (c : SeriesCell) (hs : m.seriesAt ts = ok c)
    (good : Bool) : ∃ p m', m.filter interface cards ts good = ok (p, m') ∧
      ((p = .null ∧ m'.blocks = m.blocks ∧ (good = true → ∃ k, m.fails k = true)) ∨
        (good = true ∧ CompleteResults m' p cards.length c.length ∧ Untouched m m' ∧ m'.inUse = m.inUse + (SeriesRecord.results cards.length c.length).blocks ∧
          ∃ m'', m'.freeResults p = ok m'' ∧ m''.blocks = m.blocks)) := by
  have hw := Store.within_used hm
  rcases filterMemory_spec hw interface cards hs good with ⟨m1, a1, w1, k1, f1⟩ | ⟨hgood, m1, e, a1, w1, g1, k1⟩
  · exact ⟨_, m1, a1, Or.inl ⟨rfl, k1.same.all hw w1, f1⟩⟩
  · obtain ⟨m2, a2, w2, k2, _⟩ := freeResults_spec w1 g1
    refine ⟨_, m1, a1, Or.inr ⟨hgood, complete_results g1, untouched_of hw k1, ?_, m2, a2, (k1.trans k2).same.all hw w2⟩⟩
    rw [w1.count, hw.count, Multiset.card_add, g1.count, add_comm]

/-- Smoothing likewise, if the allocation of the array of messages (after those for the results) does not fail. -/
theorem C106_smooth (m : SeriesMemory) (hm : ∀ b, m.next ≤ b → m.blocks b = none) (interface : Nat) (cards : List Nat) (ts : MemPtr) (c : SeriesCell) (hs : m.seriesAt ts = ok c)
    (good : Bool) (hf : m.fails (m.next + (if 0 < interface then 1 else 0) + 3 + c.length * (1 + cards.length)) = false) : ∃ p m', m.smooth interface cards ts good = ok (p, m') ∧
      ((p = .null ∧ m'.blocks = m.blocks ∧ (good = true → ∃ k, m.fails k = true)) ∨
        (good = true ∧ CompleteResults m' p cards.length c.length ∧ Untouched m m' ∧ m'.inUse = m.inUse + (SeriesRecord.results cards.length c.length).blocks ∧
          ∃ m'', m'.freeResults p = ok m'' ∧ m''.blocks = m.blocks)) := by
  have hw := Store.within_used hm
  have hf' : m.fails (m.next + messagesAt interface cards.length c.length) = false := by
    unfold messagesAt ifaceBlocks
    rw [← Nat.add_assoc, ← Nat.add_assoc]
    exact hf
  rcases smoothMemory_spec hw interface cards hs good hf' with ⟨m1, a1, w1, k1, f1⟩ | ⟨hgood, m1, e, a1, w1, g1, k1⟩
  · exact ⟨_, m1, a1, Or.inl ⟨rfl, k1.same.all hw w1, f1⟩⟩
  · obtain ⟨m2, a2, w2, k2, _⟩ := freeResults_spec w1 g1
    refine ⟨_, m1, a1, Or.inr ⟨hgood, complete_results g1, untouched_of hw k1, ?_, m2, a2, (k1.trans k2).same.all hw w2⟩⟩
    rw [w1.count, hw.count, Multiset.card_add, g1.count, add_comm]

/-- If of all allocations of smoothing that one is the first to fail, NULL is used as an array. -/
theorem C106_smoothing_undefined (m : SeriesMemory) (hm : ∀ b, m.next ≤ b → m.blocks b = none) (interface : Nat) (cards : List Nat) (ts : MemPtr) (c : SeriesCell)
    (hs : m.seriesAt ts = ok c) (good : Bool) (hf : m.fails (m.next + (if 0 < interface then 1 else 0) + 3 + c.length * (1 + cards.length)) = true)
    (hb : ∀ k, m.next ≤ k → k < m.next + (if 0 < interface then 1 else 0) + 3 + c.length * (1 + cards.length) → m.fails k = false) : m.smooth interface cards ts good = ub := by
  have hw := Store.within_used hm
  have hp : m.next + messagesAt interface cards.length c.length = m.next + (if 0 < interface then 1 else 0) + 3 + c.length * (1 + cards.length) := by
    unfold messagesAt ifaceBlocks
    rw [← Nat.add_assoc, ← Nat.add_assoc]
  rcases smooth_undefined hw interface cards hs good (by rw [hp]; exact hf) with h | ⟨m1, a1, w1, k1, k, f1, l1, l2⟩
  · exact h
  · rw [hb k l1 (by rw [← hp]; exact l2)] at f1
    cases f1

/-- The most likely sequence: NULL with memory as before, or a complete series that can be freed, after which memory is as before. -/
theorem C106_mlss (m : SeriesMemory) (hm : ∀ b, m.next ≤ b → m.blocks b = none) (vars asked t : Nat) (c : SeriesCell) (hs : m.blocks t = some (.series c)) :
    ∃ p m', m.mostLikely vars asked (.block t) = ok (p, m') ∧
      ((p = .null ∧ m'.blocks = m.blocks ∧ ∃ k, m.fails k = true) ∨
        (CompleteSeries m' p c.length ∧ Untouched m m' ∧ m'.inUse = m.inUse + (SeriesRecord.series c.length true).blocks ∧ ∃ m'', m'.freeSeries p = ok m'' ∧ m''.blocks = m.blocks)) := by
  have hw := Store.within_used hm
  rcases mostLikely_spec hw vars asked ((hw.used t).1 (by rw [hs]; rfl)) hs with ⟨m1, a1, w1, k1, f1⟩ | ⟨m1, e, a1, w1, g1, k1⟩
  · exact ⟨_, m1, a1, Or.inl ⟨rfl, k1.same.all hw w1, f1⟩⟩
  · obtain ⟨m2, a2, w2, k2⟩ := freeSeries_spec w1 g1
    refine ⟨_, m1, a1, Or.inr ⟨complete_series g1, untouched_of hw k1, ?_, m2, a2, (k1.trans k2).same.all hw w2⟩⟩
    rw [w1.count, hw.count, Multiset.card_add, g1.count, add_comm]

/-- a memory with one series of two steps (and nothing else), in which some allocations fail -/
abbrev oneSeries (fails : Nat → Bool) : SeriesMemory :=
  { blocks := fun b => if b = 0 then some (.series { length := 2, hidden := .null, observed := .null, data := .null }) else none, next := 1, fails := fails }

theorem oneSeries_new (fails : Nat → Bool) : ∀ b, (oneSeries fails).next ≤ b → (oneSeries fails).blocks b = none := by
  intro b hb
  have : b ≠ 0 := by
    rintro rfl
    exact absurd (show 1 ≤ 0 from hb) (by decide)
  simp [this]

example (k : Nat) : ∃ p m', (oneSeries (fun j => j == k)).filter 1 [2, 3] (.block 0) true = ok (p, m') ∧
    (p = .null ∧ m'.blocks = (oneSeries (fun j => j == k)).blocks ∨ m'.inUse = 10 ∧ CompleteResults m' p 2 2) := by
  obtain ⟨p, m', h1, h2⟩ := C106_filter (oneSeries (fun j => j == k)) (oneSeries_new _) 1 [2, 3] (.block 0) _ rfl true
  refine ⟨p, m', h1, ?_⟩
  rcases h2 with ⟨h2, h3, _⟩ | ⟨_, h2, _, h3, _⟩
  · exact Or.inl ⟨h2, h3⟩
  · exact Or.inr ⟨h3, h2⟩

example (k : Nat) (hk : k ≠ 11) : ∃ p m', (oneSeries (fun j => j == k)).smooth 1 [2, 3] (.block 0) true = ok (p, m') ∧
    (p = .null ∧ m'.blocks = (oneSeries (fun j => j == k)).blocks ∨ m'.inUse = 10 ∧ CompleteResults m' p 2 2) := by
  obtain ⟨p, m', h1, h2⟩ := C106_smooth (oneSeries (fun j => j == k)) (oneSeries_new _) 1 [2, 3] (.block 0) _ rfl true (by simpa using Ne.symm hk)
  refine ⟨p, m', h1, ?_⟩
  rcases h2 with ⟨h2, h3, _⟩ | ⟨_, h2, _, h3, _⟩
  · exact Or.inl ⟨h2, h3⟩
  · exact Or.inr ⟨h3, h2⟩

example : (oneSeries (fun j => j == 11)).smooth 1 [2, 3] (.block 0) true = ub :=
  C106_smoothing_undefined _ (oneSeries_new _) _ _ _ _ rfl _ rfl (by
    intro k _ h2
    have : k ≠ 11 := by
      rintro rfl
      exact absurd h2 (by decide)
    simpa using this)

example (k : Nat) : ∃ p m', (oneSeries (fun j => j == k)).mostLikely 5 3 (.block 0) = ok (p, m') ∧ (p = .null ∧ m'.blocks = (oneSeries (fun j => j == k)).blocks ∨ m'.inUse = 7) := by
  obtain ⟨p, m', h1, h2⟩ := C106_mlss (oneSeries (fun j => j == k)) (oneSeries_new _) 5 3 0 _ rfl
  refine ⟨p, m', h1, ?_⟩
  rcases h2 with ⟨h2, h3, _⟩ | ⟨_, _, h3, _⟩
  · exact Or.inl ⟨h2, h3⟩
  · exact Or.inr h3

/-- Allocations may fail while a file is read.  If the outcome is defined, then all series are there; or the answer is zero, an allocation failed, and the blocks of the series that had
been read and at most one other block are lost: they are in use, though the program has got nothing.  What was in memory before is unchanged in any case.  The outcome is undefined only if an
allocation fails. -/
theorem C106_read (m : SeriesMemory) (hm : ∀ b, m.next ≤ b → m.blocks b = none) (vars : Nat) (file : FileShape) (hl : ∀ s ∈ file.series, ∀ n ∈ s, 0 < n ∧ n ≤ file.known.length) :
    (m.readSeries vars file = ub ∧ ∃ k, m.fails k = true) ∨
    ∃ n p m', m.readSeries vars file = ok (n, p, m') ∧ Untouched m m' ∧
      ((n = file.series.length ∧ m'.inUse = m.inUse + (SeriesLedger.blocks file.records) ∧ ∃ l, m'.pointersAt p = ok l ∧ l.length = n ∧
          ∀ (i : Nat) (s : List Nat), file.series[i]? = some s → ∃ q c, l[i]? = some q ∧ m'.seriesAt q = ok c ∧ c.length = s.length) ∨
        (n = 0 ∧ (∃ k, m.fails k = true) ∧ ∃ k lost, k ≤ file.series.length ∧ (k = file.series.length → k = 0) ∧ lost ≤ 1 ∧
          m'.inUse = m.inUse + ((file.series.take k).map (fun s => (SeriesRecord.series s.length (decide (0 < file.observed))).blocks)).sum + lost)) := by
  have hw := Store.within_used hm
  rcases readSeries_spec hw vars file hl with h | ⟨⟨m1, p, E, L, k, a1, c1, e1, w1, l1, g1, k1⟩, f1⟩ | ⟨m1, r, E, a1, w1, b1, g1, k1⟩
  · exact Or.inl h
  · refine Or.inr ⟨0, p, m1, a1, untouched_of hw k1, Or.inr ⟨rfl, f1, k, L.card, c1, fun hk => ?_, l1, ?_⟩⟩
    · rw [hk, e1 hk]
      rfl
    · rw [w1.count, hw.count, Multiset.card_add, Multiset.card_add, g1.count]
      omega
  · refine Or.inr ⟨_, _, m1, a1, untouched_of hw k1, Or.inl ⟨rfl, ?_, entryPtrs E, Store.pointersAt_eq b1, by simp [entryPtrs, g1.length], ?_⟩⟩
    · rw [w1.count, hw.count, Multiset.card_add, Multiset.card_add, g1.count]
      simp only [SeriesLedger.blocks, FileShape.records, List.map_cons, List.map_map, List.sum_cons, Multiset.card_singleton]
      rw [show (SeriesRecord.blocks ∘ fun (s : List Nat) => SeriesRecord.series s.length (decide (0 < file.observed))) =
        fun s => (SeriesRecord.series s.length (decide (0 < file.observed))).blocks from rfl]
      simp only [SeriesRecord.blocks]
      omega
    · intro i s hi
      obtain ⟨h1, h2⟩ := List.getElem?_eq_some_iff.1 hi
      have hE : i < E.length := by rw [g1.length]; exact h1
      have hg := List.Forall₂.get g1 hE h1
      simp only [List.get_eq_getElem, h2] at hg
      exact ⟨.block E[i].addr, _, by simp [entryPtrs, hE], Store.seriesAt_eq hg.cell, rfl⟩

/-- The series that were read are lost.  The file of two series is read into empty memory, and there is none for the second series (allocation 18): the answer is zero, the array has
been freed, and the six blocks of the first series are in use. -/
theorem C106_read_lost : ∃ p m', (Store.empty (fun k => k == 18) : SeriesMemory).readSeries 5 twoSeries = ok (0, p, m') ∧ m'.inUse = 6 ∧ m'.get p = ub :=
  ⟨.block 1, _, rfl, rfl, rfl⟩

/-- There is no memory for the array of the hidden variables of the first series: the array of the observed variables is lost, for every file and in every memory. -/
theorem C106_observed_lost (m : SeriesMemory) (hm : ∀ b, m.next ≤ b → m.blocks b = none) (vars : Nat) (file : FileShape) (hne : file.series ≠ []) (ho : 0 < file.observed)
    (f0 : m.fails m.next = false) (f1 : m.fails (m.next + 1) = false) (f2 : m.fails (m.next + 2) = false) (f3 : m.fails (m.next + 3) = true) (f4 : m.fails (m.next + 4) = false) :
    ∃ p m', m.readSeries vars file = ok (0, p, m') ∧ m'.inUse = m.inUse + 1 := by
  have hw := Store.within_used hm
  generalize ((List.range m.next).filter (fun b => (m.blocks b).isSome) : Multiset Nat) = M at hw
  obtain ⟨m1, a1, w1, b1, s1, e1, n1⟩ := hw.alloc f0 .file
  obtain ⟨m2, a2, w2, b2, s2, e2, n2⟩ := w1.alloc (by rw [e1, n1]; exact f1) (.pointers (List.replicate file.series.length .null))
  obtain ⟨lines, rest, hser⟩ := List.exists_cons_of_ne_nil hne
  obtain ⟨m3, a3, w3, b3, s3, e3, n3⟩ := w2.alloc (by rw [e2, e1, n2, n1]; exact f2) (.series { length := lines.length, hidden := .null, observed := .null, data := .null })
  obtain ⟨m4, a4, w4, s4, e4, n4⟩ := w3.allocNull (by rw [e3, e2, e1, n3, n2, n1]; exact f3) (.references (vars - file.known.count true))
  obtain ⟨m5, a5, w5, b5, s5, e5, n5⟩ := w4.alloc (by rw [e4, e3, e2, e1, n4, n3, n2, n1]; exact f4) (.references (file.known.count true))
  obtain ⟨m6, a6, w6, b6, s6, e6, n6⟩ := Store.Within.put (a := m2.next) (M := {m4.next} + ({m1.next} + ({m.next} + M))) (w5.as (by abel))
    (.series { length := lines.length, hidden := .null, observed := .block m4.next, data := .null })
  obtain ⟨m7, a7, w7, s7, e7, n7⟩ := w6.free
  obtain ⟨m8, a8, w8, s8, e8, n8⟩ := Store.Within.free (a := m1.next) (M := {m4.next} + ({m.next} + M)) (w7.as (by abel))
  obtain ⟨m9, a9, w9, s9, e9, n9⟩ := Store.Within.free (a := m.next) (M := {m4.next} + M) (w8.as (by abel))
  have ho' : 0 < file.known.count true := ho
  refine ⟨.block m1.next, m9, ?_, ?_⟩
  · unfold Store.readSeries
    rw [a1]
    simp only [show (MemPtr.block m.next == MemPtr.null) = false from rfl, Bool.false_eq_true, if_false]
    rw [a2]
    simp only [show (MemPtr.block m1.next == MemPtr.null) = false from rfl, Bool.false_eq_true, if_false]
    have h1 : m2.readOne vars file.known (.block m.next) (.block m1.next) lines .null = ok (.null, .null, m9) := by
      unfold Store.readOne
      rw [a3]
      simp only [show (MemPtr.block m2.next == MemPtr.null) = false from rfl, Bool.false_eq_true, if_false]
      rw [a4]
      simp only []
      rw [if_pos ho', a5]
      simp only []
      rw [a6, ok_bind, if_pos (by simp), show m6.free .null = ok m6 from rfl, ok_bind, a7, ok_bind, a8, ok_bind, a9, ok_bind]
    rw [hser]
    unfold Store.readAll
    rw [h1]
    rfl
  · rw [w9.count, hw.count, Multiset.card_add, Multiset.card_singleton, add_comm]

example : ∃ p m', (Store.empty (fun k => k == 3) : SeriesMemory).readSeries 5 twoSeries = ok (0, p, m') ∧ m'.inUse = 1 :=
  C106_observed_lost _ (fun _ _ => rfl) 5 twoSeries (by decide) (by decide) rfl rfl rfl rfl rfl

/-- There is no memory for the places of the fields of a line (allocation 8), for the array of the fields (9), or for the first, second or third field (10, 11, 12): memory that was freed,
or NULL, is used, or something is read from behind a variable. -/
theorem C106_split_undefined : ∀ k ∈ [8, 9, 10, 11, 12], (Store.empty (fun j => j == k) : SeriesMemory).readSeries 5 twoSeries = ub := by
  intro k hk
  simp only [List.mem_cons, List.not_mem_nil, or_false] at hk
  rcases hk with rfl | rfl | rfl | rfl | rfl <;> rfl

example : (Store.empty ample : SeriesMemory).readSeries 5 twoSeries ≠ ub ∧ ∀ k, (Store.empty (fun j => j == k) : SeriesMemory).readSeries 5 twoSeries = ub ∨
    ∃ n p m', (Store.empty (fun j => j == k) : SeriesMemory).readSeries 5 twoSeries = ok (n, p, m') ∧ (n = 2 ∧ m'.inUse = 14 ∨ n = 0) := by
  have hl : ∀ s ∈ twoSeries.series, ∀ n ∈ s, 0 < n ∧ n ≤ twoSeries.known.length := by decide
  refine ⟨fun h => ?_, fun k => ?_⟩
  · rcases C106_read (Store.empty ample) (fun _ _ => rfl) 5 twoSeries hl with ⟨_, k, hk⟩ | ⟨n, p, m', h1, _⟩
    · cases hk
    · rw [h] at h1
      cases h1
  · rcases C106_read (Store.empty (fun j => j == k)) (fun _ _ => rfl) 5 twoSeries hl with ⟨h, _⟩ | ⟨n, p, m', h1, _, ⟨h2, h3, _⟩ | ⟨h2, _⟩⟩
    · exact Or.inl h
    · exact Or.inr ⟨n, p, m', h1, Or.inl ⟨h2, h3⟩⟩
    · exact Or.inr ⟨n, p, m', h1, Or.inr h2⟩

/-- Results are written.  If the variable is in all of them, memory is as before, whether or not there was memory and the file could be opened; and there was an error if one of these
went wrong. -/
theorem C106_write (m : SeriesMemory) (hm : ∀ b, m.next ≤ b → m.blocks b = none) (found : List Bool) (opens closes : Bool) (hf : ∀ x ∈ found, x = true) :
    ∃ m', m.writeResults found opens closes = ok (m.fails m.next || !opens || !closes, m') ∧ m'.blocks = m.blocks := by
  have hw := Store.within_used hm
  have hall : found.all id = true := by simpa using hf
  unfold Store.writeResults
  cases hf : m.fails m.next with
  | true =>
    obtain ⟨m1, a1, w1, s1, _⟩ := hw.allocNull hf (.numbers found.length)
    exact ⟨m1, by rw [a1]; simp, s1.all hw w1⟩
  | false =>
    obtain ⟨m1, a1, w1, b1, s1, e1, n1⟩ := hw.alloc hf (.numbers found.length)
    obtain ⟨m2, a2, w2, s2, e2, n2⟩ := w1.free
    refine ⟨m2, ?_, Store.SameOn.all hw (fun b hb => by rw [s2 b hb, s1 b hb]) w2⟩
    rw [a1]
    cases opens <;> simp [hall, a2]

/-- If the variable is missing in one of them, there is an error and a block is lost. -/
theorem C106_write_lost (m : SeriesMemory) (hm : ∀ b, m.next ≤ b → m.blocks b = none) (found : List Bool) (opens closes : Bool) (hf : false ∈ found) (h0 : m.fails m.next = false) :
    ∃ m', m.writeResults found opens closes = ok (true, m') ∧ m'.inUse = m.inUse + 1 := by
  have hw := Store.within_used hm
  have hall : found.all id = false := by
    rw [List.all_eq_false]
    exact ⟨false, hf, by simp⟩
  obtain ⟨m1, a1, w1, b1, s1, e1, n1⟩ := hw.alloc h0 (.numbers found.length)
  refine ⟨m1, ?_, by rw [w1.count, hw.count, Multiset.card_add, Multiset.card_singleton, add_comm]⟩
  unfold Store.writeResults
  rw [a1]
  simp [hall]

example : ∃ m', (oneSeries ample).writeResults [true, true] false true = ok (true, m') ∧ m'.blocks = (oneSeries ample).blocks := C106_write _ (oneSeries_new _) _ _ _ (by simp)

example : ∃ m', (oneSeries ample).writeResults [true, false] true true = ok (true, m') ∧ m'.inUse = 2 := C106_write_lost _ (oneSeries_new _) _ _ _ (by simp) rfl

end Nip.Props
