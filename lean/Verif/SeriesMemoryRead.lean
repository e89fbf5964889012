import Verif.SeriesMemoryLemmas

/-! # Lemmas about the memory while time series are read -/

namespace Nip

open Res Spec Store

theorem get_gone {B : Type} {m : Store B} {a : Nat} (h : m.blocks a = none) : m.get (.block a) = ub := by
  unfold Store.get
  simp only [h]

theorem get_here {B : Type} {m : Store B} {a : Nat} {b : B} (h : m.blocks a = some b) : m.get (.block a) = ok b := by
  unfold Store.get
  simp only [h]

theorem free_gone {B : Type} {m : Store B} {a : Nat} (h : m.blocks a = none) : m.free (.block a) = ub := by
  unfold Store.free
  simp only [h]

theorem Store.Within.gone {B : Type} {m : Store B} {M : Multiset Nat} (h : m.Within M) {a : Nat} (ha : a ∉ M) : m.blocks a = none := by
  cases e : m.blocks a with
  | none => rfl
  | some b => exact absurd ((h.used a).1 (by rw [e]; rfl)) ha

/-- A pointer that was never set or whose block has been freed. -/
def Stale (m : SeriesMemory) (p : MemPtr) : Prop := ∀ a, p = .block a → a < m.next ∧ m.blocks a = none

theorem Stale.keep {m m' : SeriesMemory} {M : Multiset Nat} {p : MemPtr} (h : Stale m p) (k : m.Keeps m' M) : Stale m' p :=
  fun a ha => ⟨lt_of_lt_of_le (h a ha).1 k.later, k.gone a (h a ha).1 (h a ha).2⟩

theorem Stale.entry {m : SeriesMemory} {p : MemPtr} (h : Stale m p) (i : Nat) : m.entryAt p i = ub := by
  unfold Store.entryAt Store.pointersAt
  cases p with
  | junk => rfl
  | null => rfl
  | block a =>
    rw [get_gone (h a rfl).2]
    rfl

theorem loop_unit_ub {n : Nat} {f : Nat → Unit → Res Unit} (h : ∀ i, i < n → f i () = ok () ∨ f i () = ub) (hu : ∃ i, i < n ∧ f i () = ub) : loop n f () = ub := by
  induction n with
  | zero =>
    obtain ⟨i, hi, _⟩ := hu
    omega
  | succ n ih =>
    rw [loop_succ]
    by_cases hn : ∃ i, i < n ∧ f i () = ub
    · rw [ih (fun i hi => h i (by omega)) hn]
      rfl
    · obtain ⟨i, hi, e⟩ := hu
      have hin : i = n := by
        by_contra hne
        exact hn ⟨i, by omega, e⟩
      subst hin
      have : loop i f () = ok () := by
        obtain ⟨s, e1, _⟩ := loop_inv (n := i) (f := f) (s := ()) (fun _ _ => True) trivial (by
          intro j hj _ _
          rcases h j (by omega) with e | e
          · exact ⟨(), e, trivial⟩
          · exact absurd ⟨j, hj, e⟩ hn)
        exact e1
      rw [this]
      exact e

/-! ### tokens -/

/-- the loop that frees in a wrong way -/
theorem wrongLoop {m : SeriesMemory} {M : Multiset Nat} {a : Nat} (h : m.Within ({a} + M)) (n : Nat) :
    (do
      let m ← loop (n + 1) (fun j (m : SeriesMemory) => if j = 0 then m.free (.block a) else ub) m
      m.free (.block a)) = (ub : Res SeriesMemory) := by
  obtain ⟨m1, a1, w1, k1, n1⟩ := Within.release (q := .block a) (by simp) h
  have ha : a ∉ M := by
    have := h.nodup
    rw [Multiset.singleton_add] at this
    exact (Multiset.nodup_cons.1 this).1
  have one : loop 1 (fun j (m : SeriesMemory) => if j = 0 then m.free (.block a) else ub) m = ok m1 := by
    rw [loop_succ]
    simp [a1]
  cases n with
  | zero =>
    rw [one, ok_bind, free_gone (w1.gone ha)]
  | succ n =>
    have : loop (n + 1 + 1) (fun j (m : SeriesMemory) => if j = 0 then m.free (.block a) else ub) m = ub := by
      induction n with
      | zero =>
        rw [loop_succ, one]
        rfl
      | succ n ih =>
        rw [loop_succ, ih]
        rfl
    rw [this]
    rfl

theorem nodup_first {a : Nat} {M : Multiset Nat} (h : ({a} + M).Nodup) : a ∉ M := by
  rw [Multiset.singleton_add] at h
  exact (Multiset.nodup_cons.1 h).1

theorem newTokens_spec {df b a : Nat} (k : Nat) (l : List MemPtr) (hj : ∀ q ∈ l, q ≠ .junk) {m : SeriesMemory} {M : Multiset Nat}
    (h : m.Within (ptrBlocks l + ({a} + ({b} + ({df} + M))))) (e : m.blocks a = some (.pointers (l ++ List.replicate k .null))) :
    (newTokens (.block df) (.block b) (.block a) k l.length m = ub ∧ ∃ i, m.fails i = true) ∨
    ((∃ m', newTokens (.block df) (.block b) (.block a) k l.length m = ok (false, m') ∧ m'.blocks df = none) ∧ ∃ i, m.fails i = true) ∨
    (∃ m' l', newTokens (.block df) (.block b) (.block a) k l.length m = ok (true, m') ∧ l'.length = k ∧ (∀ q ∈ l', q ≠ .junk) ∧
      m'.Within (ptrBlocks (l ++ l') + ({a} + ({b} + ({df} + M)))) ∧ m'.blocks a = some (.pointers (l ++ l')) ∧ m.Keeps m' ({b} + ({df} + M))) := by
  induction k generalizing l m with
  | zero => exact Or.inr (Or.inr ⟨m, [], rfl, rfl, by simp, by simpa using h, by simpa using e, Keeps.refl _ _⟩)
  | succ k ih =>
    unfold newTokens
    have hM : ({b} + ({df} + M) : Multiset Nat) ≤ ptrBlocks l + ({a} + ({b} + ({df} + M))) := (Multiset.le_add_left _ _).trans (Multiset.le_add_left _ _)
    rcases h.any .text with ⟨m1, a1, f1, w1, k1, n1⟩ | ⟨m1, a1, f1, w1, b1, k1, n1⟩
    · rw [a1]
      simp only [beq_self_eq_true, if_true]
      have w1' : m1.Within ({df} + (ptrBlocks l + ({a} + ({b} + M)))) := w1.as (by abel)
      have hdf := nodup_first w1'.nodup
      obtain ⟨m2, a2, w2, k2, n2⟩ := Within.release (q := .block df) (by simp) w1'
      rw [a2, ok_bind]
      cases l with
      | nil =>
        right; left
        refine ⟨?_, _, f1⟩
        obtain ⟨m3, a3, w3, k3, n3⟩ := Within.release (q := .block a) (M := {b} + M) (by simp) (w2.as (by simp [ptrBlocks_nil, MemPtr.blocks]))
        obtain ⟨m4, a4, w4, k4, n4⟩ := Within.release (q := .block b) (by simp) w3
        refine ⟨m4, by simp [a3, a4], w4.gone (fun hh => hdf ?_)⟩
        simp [hh]
      | cons q l =>
        left
        refine ⟨?_, _, f1⟩
        have w2' : m2.Within ({a} + (ptrBlocks (q :: l) + ({b} + M))) := w2.as (by abel)
        have := wrongLoop w2' l.length
        rw [List.length_cons]
        cases hx : loop (l.length + 1) (fun j (m : SeriesMemory) => if j = 0 then m.free (.block a) else ub) m2 with
        | ub => rfl
        | ok m3 =>
          rw [hx, ok_bind] at this
          rw [ok_bind, this]
          rfl
    · rw [a1]
      simp only [show (MemPtr.block m.next == MemPtr.null) = false from rfl, Bool.false_eq_true, if_false]
      have ea : m1.blocks a = some (.pointers (l ++ List.replicate (k + 1) .null)) := by rw [k1.same a (by simp), e]
      obtain ⟨m2, a2, w2, b2, k2, n2⟩ := Within.setEntry (a := a) (M := {m.next} + (ptrBlocks l + ({b} + ({df} + M)))) (w1.as (by abel)) ea (i := l.length) (by simp) (.block m.next)
      rw [set_replicate_null] at b2
      have kM : m.Keeps m2 ({b} + ({df} + M)) := (k1.mono hM).then k2 ((Multiset.le_add_left _ _).trans (Multiset.le_add_left _ _))
      have hl : (l ++ [MemPtr.block m.next]).length = l.length + 1 := by simp
      rw [a2, ok_bind, ← hl]
      rcases ih (l ++ [.block m.next]) (by
          intro q hq
          rcases List.mem_append.1 hq with hq | hq
          · exact hj q hq
          · rw [List.mem_singleton.1 hq]; simp) (w2.as (by rw [ptrBlocks_append, ptrBlocks_single, MemPtr.blocks]; abel)) b2 with
        ⟨a3, i, hi⟩ | ⟨⟨m3, a3, d3⟩, i, hi⟩ | ⟨m3, l', a3, c3, j3, w3, b3, k3⟩
      · exact Or.inl ⟨a3, i, by rw [← kM.fails]; exact hi⟩
      · exact Or.inr (Or.inl ⟨⟨m3, a3, d3⟩, i, by rw [← kM.fails]; exact hi⟩)
      · refine Or.inr (Or.inr ⟨m3, .block m.next :: l', a3, by simp [c3], ?_, w3.as (by simp), by rw [b3]; simp, kM.trans k3⟩)
        intro q hq
        rcases List.mem_cons.1 hq with rfl | hq
        · simp
        · exact j3 q hq

theorem newTokens_null {df b k : Nat} {m : SeriesMemory} {M : Multiset Nat} (h : m.Within ({b} + ({df} + M))) :
    newTokens (.block df) (.block b) .null (k + 1) 0 m = ub ∨ ∃ m', newTokens (.block df) (.block b) .null (k + 1) 0 m = ok (false, m') ∧ m'.blocks df = none := by
  unfold newTokens
  rcases h.any .text with ⟨m1, a1, f1, w1, k1, n1⟩ | ⟨m1, a1, f1, w1, b1, k1, n1⟩
  · right
    rw [a1]
    have w1' : m1.Within ({df} + ({b} + M)) := w1.as (by abel)
    have hdf := nodup_first w1'.nodup
    obtain ⟨m2, a2, w2, k2, n2⟩ := Within.release (q := .block df) (by simp) w1'
    obtain ⟨m4, a4, w4, k4, n4⟩ := Within.release (q := .block b) (by simp) w2
    refine ⟨m4, by simp only [beq_self_eq_true, if_true, a2, ok_bind, loop_zero, show m2.free .null = ok m2 from rfl, a4], w4.gone (fun hh => hdf (by simp [hh]))⟩
  · left
    rw [a1]
    rfl

theorem readLine_spec {df : Nat} {tokens : MemPtr} {known : List Bool} {n : Nat} {m : SeriesMemory} {M : Multiset Nat} (h : m.Within ({df} + M)) (hd : m.blocks df = some .file)
    (hk : true ∈ known) (h0 : 0 < n) (hn : n ≤ known.length) (hs : Stale m tokens) :
    (m.readLine (.block df) tokens known n = ub ∧ ∃ k, m.fails k = true) ∨
    (∃ m' t', m.readLine (.block df) tokens known n = ok (t', m') ∧ m'.Within ({df} + M) ∧ m.Keeps m' ({df} + M) ∧ Stale m' t') := by
  have missing : ∀ {m1 : SeriesMemory} {t : MemPtr}, m.nextTokens (.block df) tokens n = ok (none, t, m1) → m1.blocks df = none → m.readLine (.block df) tokens known n = ub := by
    intro m1 t e1 e2
    unfold Store.readLine
    rw [e1, ok_bind]
    simp only []
    rw [get_gone e2]
    rfl
  have undef : m.nextTokens (.block df) tokens n = ub → m.readLine (.block df) tokens known n = ub := by
    intro e
    unfold Store.readLine
    rw [e]
    rfl
  rcases h.any (.numbers (2 * n)) with ⟨m1, a1, f1, w1, k1, n1⟩ | ⟨m1, a1, f1, w1, b1, k1, n1⟩
  · left
    refine ⟨?_, _, f1⟩
    have e1 : m.nextTokens (.block df) tokens n = ok (none, tokens, m1) := by
      unfold Store.nextTokens
      rw [get_here hd, ok_bind, a1]
      rfl
    unfold Store.readLine
    rw [e1, ok_bind]
    simp only []
    rw [get_here (by rw [k1.same df (by simp), hd]), ok_bind]
    have hs1 : Stale m1 tokens := hs.keep k1
    rw [loop_unit_ub]
    · rfl
    · intro i hi
      have hi' : i < known.length := by simpa using hi
      rw [rd_lt hi', ok_bind]
      split
      · right
        rw [hs1.entry]
        rfl
      · exact Or.inl rfl
    · obtain ⟨i, hi, e⟩ := List.mem_iff_getElem.1 hk
      refine ⟨i, by simpa using hi, ?_⟩
      rw [rd_lt hi, ok_bind, e, if_pos rfl, hs1.entry]
      rfl
  · have hb : (m.nextTokens (.block df) tokens n) = (do
        let (a, m) := m1.alloc (.pointers (List.replicate n .null))
        let (good, m) ← newTokens (.block df) (.block m1.next.pred) a n 0 m
        if good then do
          let m ← m.free (.block m1.next.pred)
          ok (some n, a, m)
        else ok (none, a, m)) := by
      unfold Store.nextTokens
      rw [get_here hd, ok_bind, a1, n1]
      rfl
    have hp : m1.next.pred = m.next := by rw [n1]; rfl
    rw [hp] at hb
    rcases w1.any (.pointers (List.replicate n .null)) with ⟨m2, a2, f2, w2, k2, n2⟩ | ⟨m2, a2, f2, w2, b2, k2, n2⟩
    · left
      refine ⟨?_, m1.next, by rw [← k1.fails]; exact f2⟩
      rw [a2] at hb
      simp only [] at hb
      obtain ⟨j, rfl⟩ : ∃ j, n = j + 1 := ⟨n - 1, by omega⟩
      rcases newTokens_null (k := j) w2 with e | ⟨m3, e, e'⟩
      · exact undef (by rw [hb, e]; rfl)
      · exact missing (by rw [hb, e]; rfl) e'
    · rw [a2] at hb
      simp only [] at hb
      rcases newTokens_spec (df := df) (b := m.next) (a := m1.next) (M := M) n [] (by simp) (w2.as (by simp [ptrBlocks_nil])) (by simpa using b2) with
        ⟨a3, i, hi⟩ | ⟨⟨m3, a3, d3⟩, i, hi⟩ | ⟨m3, l, a3, c3, j3, w3, b3, k3⟩
      · left
        refine ⟨undef (by rw [hb, show (0 : Nat) = ([] : List MemPtr).length from rfl, a3]; rfl), i, by rw [← k1.fails, ← k2.fails]; exact hi⟩
      · left
        refine ⟨missing (by rw [hb, show (0 : Nat) = ([] : List MemPtr).length from rfl, a3]; rfl) d3, i, by rw [← k1.fails, ← k2.fails]; exact hi⟩
      · right
        rw [List.nil_append] at w3 b3
        rw [List.length_nil] at a3
        obtain ⟨m4, a4, w4, k4, n4⟩ := Within.release (q := .block m.next) (M := ptrBlocks l + ({m1.next} + ({df} + M))) (by simp) (w3.as (by simp only [MemPtr.blocks]; abel))
        have e4 : m.nextTokens (.block df) tokens n = ok (some n, .block m1.next, m4) := by
          rw [hb, a3]
          simp [a4]
        have b4 : m4.blocks m1.next = some (.pointers (l ++ [])) := by rw [k4.same _ (by simp), b3, List.append_nil]
        obtain ⟨m5, a5, w5, k5, n5⟩ := freeUp_spec w4 b4 j3
        obtain ⟨m6, a6, w6, k6, n6⟩ := Within.release (q := .block m1.next) (by simp) w5
        have hM2 : ({df} + M : Multiset Nat) ≤ {m.next} + ({df} + M) := Multiset.le_add_left _ _
        have K2 : m.Keeps m2 ({df} + M) := k1.then k2 hM2
        have K4 : m.Keeps m4 ({df} + M) := (K2.then k3 hM2).then k4 ((Multiset.le_add_left _ _).trans (Multiset.le_add_left _ _))
        have K6 : m.Keeps m6 ({df} + M) := (K4.then k5 (Multiset.le_add_left _ _)).trans k6
        refine ⟨m6, .block m1.next, ?_, w6, K6, ?_⟩
        · unfold Store.readLine
          rw [e4, ok_bind]
          simp only []
          rw [get_here (by rw [K4.same df (by simp), hd]), ok_bind]
          obtain ⟨u, e5, _⟩ := loop_inv (n := min ((some n).getD known.length) known.length) (f := fun i (_ : Unit) => do
            let v ← rd known i
            if v then do
              let _ ← m4.entryAt (.block m1.next) i
              ok ()
            else ok ()) (s := ()) (fun _ _ => True) trivial (by
              intro i hi s _
              have hi1 : i < n ∧ i < known.length := by simpa using hi
              rw [rd_lt hi1.2, ok_bind]
              split
              · rw [entryAt_eq b4 (by simp [c3]; omega)]
                exact ⟨(), rfl, trivial⟩
              · exact ⟨(), rfl, trivial⟩)
          rw [e5, ok_bind]
          rw [c3] at a5
          simp only [Option.getD_some]
          rw [a5, ok_bind, a6]
          rfl
        · rintro a ⟨⟩
          refine ⟨?_, w6.gone (nodup_first w5.nodup)⟩
          have := k3.later
          omega

theorem readLines_spec {df : Nat} {known : List Bool} (hk : true ∈ known) (lines : List Nat) (hl : ∀ n ∈ lines, 0 < n ∧ n ≤ known.length) (tokens : MemPtr) {m : SeriesMemory}
    {M : Multiset Nat} (h : m.Within ({df} + M)) (hd : m.blocks df = some .file) (hs : Stale m tokens) :
    (readLines (.block df) known lines tokens m = ub ∧ ∃ k, m.fails k = true) ∨
    (∃ m' t', readLines (.block df) known lines tokens m = ok (t', m') ∧ m'.Within ({df} + M) ∧ m.Keeps m' ({df} + M) ∧ Stale m' t') := by
  induction lines generalizing tokens m with
  | nil => exact Or.inr ⟨m, tokens, rfl, h, Keeps.refl _ _, hs⟩
  | cons n rest ih =>
    unfold readLines
    rcases readLine_spec h hd hk (hl n (by simp)).1 (hl n (by simp)).2 hs with ⟨a1, f1⟩ | ⟨m1, t1, a1, w1, k1, s1⟩
    · left
      rw [a1]
      exact ⟨rfl, f1⟩
    · rw [a1, ok_bind]
      rcases ih (fun n hn => hl n (by simp [hn])) t1 w1 (by rw [k1.same df (by simp), hd]) s1 with ⟨a2, i, hi⟩ | ⟨m2, t2, a2, w2, k2, s2⟩
      · exact Or.inl ⟨a2, i, by rw [← k1.fails]; exact hi⟩
      · exact Or.inr ⟨m2, t2, a2, w2, k1.trans k2, s2⟩

/-! ### files -/

theorem release_file {m : SeriesMemory} {M : Multiset Nat} {df r : Nat} (h : m.Within ({r} + ({df} + M))) :
    ∃ m1 m2, m.free (.block r) = ok m1 ∧ m1.free (.block df) = ok m2 ∧ m2.Within M ∧ m.Keeps m2 M := by
  obtain ⟨m1, a1, w1, k1, n1⟩ := Within.release (q := .block r) (by simp) h
  obtain ⟨m2, a2, w2, k2, n2⟩ := Within.release (q := .block df) (by simp) w1
  exact ⟨m1, m2, a1, a2, w2, (k1.mono (Multiset.le_add_left _ _)).trans k2⟩

theorem count_pos_mem {known : List Bool} (h : 0 < known.count true) : true ∈ known := List.count_pos_iff.1 h

/-- One series is read, or there is no memory and at most one block is lost, or what follows is undefined. -/
theorem readOne_spec {df r : Nat} {tokens : MemPtr} {known : List Bool} (vars : Nat) {lines : List Nat} {m : SeriesMemory} {M : Multiset Nat} (h : m.Within ({r} + ({df} + M)))
    (hd : m.blocks df = some .file) (hl : ∀ n ∈ lines, 0 < n ∧ n ≤ known.length) (hs : Stale m tokens) :
    (m.readOne vars known (.block df) (.block r) lines tokens = ub ∧ ∃ k, m.fails k = true) ∨
    ((∃ m' t' L, m.readOne vars known (.block df) (.block r) lines tokens = ok (.null, t', m') ∧ m'.Within (L + M) ∧ L.card ≤ 1 ∧ m.Keeps m' M) ∧ ∃ k, m.fails k = true) ∨
    (∃ (m' : SeriesMemory) (e : SEntry) (t' : MemPtr), m.readOne vars known (.block df) (.block r) lines tokens = ok (.block e.addr, t', m') ∧
      m'.Within (e.blocks + ({r} + ({df} + M))) ∧ e.Good m' lines.length (decide (0 < known.count true)) ∧ m.Keeps m' ({r} + ({df} + M)) ∧ Stale m' t') := by
  unfold Store.readOne
  have hM : M ≤ {r} + ({df} + M) := (Multiset.le_add_left _ _).trans (Multiset.le_add_left _ _)
  rcases h.any (.series { length := lines.length, hidden := .null, observed := .null, data := .null }) with ⟨m1, a1, f1, w1, k1, n1⟩ | ⟨m1, a1, f1, w1, b1, k1, n1⟩
  · right; left
    obtain ⟨m2, m3, a2, a3, w3, k3⟩ := release_file w1
    refine ⟨⟨m3, tokens, 0, ?_, w3.as (by simp), by simp, (k1.mono hM).trans k3⟩, _, f1⟩
    rw [a1]
    simp only [beq_self_eq_true, if_true, a2, a3, ok_bind]
  · rw [a1]
    simp only [show (MemPtr.block m.next == MemPtr.null) = false from rfl, Bool.false_eq_true, if_false]
    have hR1 : ({r} + ({df} + M) : Multiset Nat) ≤ {m.next} + ({r} + ({df} + M)) := Multiset.le_add_left _ _
    obtain ⟨x, m2, a2, j2, w2, k2, f2, b2⟩ := w1.more (.references (vars - known.count true))
    rw [a2]
    simp only []
    have K2 : m.Keeps m2 ({r} + ({df} + M)) := k1.then k2 hR1
    have hR2 : ({r} + ({df} + M) : Multiset Nat) ≤ x.blocks + ({m.next} + ({r} + ({df} + M))) := hR1.trans (Multiset.le_add_left _ _)
    have third : ∃ o m3, (if 0 < known.count true then m2.alloc (.references (known.count true)) else (MemPtr.null, m2)) = (o, m3) ∧ o ≠ .junk ∧
        m3.Within (o.blocks + (x.blocks + ({m.next} + ({r} + ({df} + M))))) ∧ m2.Keeps m3 (x.blocks + ({m.next} + ({r} + ({df} + M)))) ∧
        (o = .null → 0 < known.count true → ∃ k, m2.fails k = true) ∧ (¬ 0 < known.count true → o = .null) := by
      by_cases hc : 0 < known.count true
      · rw [if_pos hc]
        obtain ⟨o, m3, a3, j3, w3, k3, f3, b3⟩ := w2.more (.references (known.count true))
        exact ⟨o, m3, a3, j3, w3, k3, fun ho _ => f3 ho, fun h => absurd hc h⟩
      · rw [if_neg hc]
        exact ⟨.null, m2, rfl, by simp, w2.as (by simp [MemPtr.blocks]), Keeps.refl _ _, fun _ h => absurd h hc, fun _ => rfl⟩
    obtain ⟨o, m3, a3, j3, w3, k3, f3, o3⟩ := third
    rw [a3]
    simp only []
    have K3 : m.Keeps m3 ({r} + ({df} + M)) := K2.then k3 hR2
    obtain ⟨m4, a4, w4, b4, k4, n4⟩ := Within.write (a := m.next) (M := o.blocks + (x.blocks + ({r} + ({df} + M)))) (w3.as (by abel))
      (.series { length := lines.length, hidden := x, observed := o, data := .null })
    have hR4 : ({r} + ({df} + M) : Multiset Nat) ≤ o.blocks + (x.blocks + ({r} + ({df} + M))) := (Multiset.le_add_left _ _).trans (Multiset.le_add_left _ _)
    have K4 : m.Keeps m4 ({r} + ({df} + M)) := K3.then k4 hR4
    rw [a4, ok_bind]
    by_cases hn : (x == .null || (o == .null && decide (0 < known.count true))) = true
    · right; left
      rw [if_pos hn]
      obtain ⟨m5, a5, w5, k5, n5⟩ := Within.release (q := x) (M := {m.next} + (o.blocks + ({r} + ({df} + M)))) j2 (w4.as (by abel))
      obtain ⟨m6, a6, w6, k6, n6⟩ := Within.release (q := .block m.next) (by simp) w5
      obtain ⟨m7, m8, a7, a8, w8, k8⟩ := release_file (r := r) (df := df) (M := o.blocks + M) (w6.as (by abel))
      have hM5 : M ≤ {m.next} + (o.blocks + ({r} + ({df} + M))) := (hM.trans (Multiset.le_add_left _ _)).trans (Multiset.le_add_left _ _)
      refine ⟨⟨m8, tokens, o.blocks, ?_, w8, ?_, ?_⟩, ?_⟩
      · rw [a5, ok_bind, a6, ok_bind, a7, ok_bind, a8, ok_bind]
      · cases o <;> simp [MemPtr.blocks]
      · exact (((K4.mono hM).then k5 hM5).then k6 (hM.trans (Multiset.le_add_left _ _))).then k8 (Multiset.le_add_left _ _)
      · rw [Bool.or_eq_true, Bool.and_eq_true, beq_iff_eq, beq_iff_eq, decide_eq_true_eq] at hn
        rcases hn with hn | hn
        · obtain ⟨i, hi⟩ := f2 hn
          exact ⟨i, by rw [← k1.fails]; exact hi⟩
        · obtain ⟨i, hi⟩ := f3 hn.1 hn.2
          exact ⟨i, by rw [← K2.fails]; exact hi⟩
    · rw [if_neg hn]
      rw [Bool.or_eq_true, Bool.and_eq_true, beq_iff_eq, beq_iff_eq, decide_eq_true_eq] at hn
      obtain ⟨xa, rfl⟩ := (ptr_cases j2).resolve_left (fun e => hn (Or.inl e))
      simp only [MemPtr.blocks] at w4 k4 hR4
      by_cases hc : 0 < known.count true
      · rw [if_pos hc]
        obtain ⟨oa, rfl⟩ := (ptr_cases j3).resolve_left (fun e => hn (Or.inr ⟨e, hc⟩))
        simp only [] at w4 k4 hR4
        rcases w4.any (.pointers (List.replicate lines.length .null)) with ⟨m5, a5, f5, w5, k5, n5⟩ | ⟨m5, a5, f5, w5, b5, k5, n5⟩
        · right; left
          rw [a5]
          simp only []
          obtain ⟨m6, a6, w6, b6, k6, n6⟩ := w5.write (.series { length := lines.length, hidden := .block xa, observed := .block oa, data := .null })
          rw [a6, ok_bind, if_pos (by rfl)]
          obtain ⟨m7, a7, w7, k7, n7⟩ := Within.release (q := .block xa) (M := {oa} + ({m.next} + ({r} + ({df} + M)))) (by simp) (w6.as (by simp only [MemPtr.blocks]; abel))
          obtain ⟨m8, a8, w8, k8, n8⟩ := Within.release (q := .block oa) (by simp) w7
          obtain ⟨m9, a9, w9, k9, n9⟩ := Within.release (q := .block m.next) (by simp) w8
          obtain ⟨m10, m11, a10, a11, w11, k11⟩ := release_file w9
          have hM9 : M ≤ {m.next} + ({r} + ({df} + M)) := hM.trans (Multiset.le_add_left _ _)
          have hM4 : M ≤ {oa} + ({xa} + ({r} + ({df} + M))) := (hM.trans (Multiset.le_add_left _ _)).trans (Multiset.le_add_left _ _)
          refine ⟨⟨m11, tokens, 0, ?_, w11.as (by simp), by simp, ?_⟩, m4.next, by rw [← K4.fails]; exact f5⟩
          · rw [a7, ok_bind, a8, ok_bind, a9, ok_bind, a10, ok_bind, a11, ok_bind]
          · exact ((((((K4.mono hM).then k5 (hM4.trans (Multiset.le_add_left _ _))).then k6 hM4).then k7 (hM9.trans (Multiset.le_add_left _ _))).then k8 hM9).then k9 hM).trans k11
        · rw [a5]
          simp only []
          obtain ⟨m6, a6, w6, b6, k6, n6⟩ := Within.write (a := m.next) (M := {m4.next} + ({oa} + ({xa} + ({r} + ({df} + M))))) (w5.as (by abel))
            (.series { length := lines.length, hidden := .block xa, observed := .block oa, data := .block m4.next })
          rw [a6, ok_bind, if_neg (by simp)]
          have hR6 : ({r} + ({df} + M) : Multiset Nat) ≤ {m4.next} + ({oa} + ({xa} + ({r} + ({df} + M)))) :=
            ((Multiset.le_add_left _ _).trans (Multiset.le_add_left _ _)).trans (Multiset.le_add_left _ _)
          have K5 : m.Keeps m5 ({r} + ({df} + M)) := K4.then k5 (hR4.trans (Multiset.le_add_left _ _))
          have K6 : m.Keeps m6 ({r} + ({df} + M)) := K5.then k6 hR6
          have e6 : m6.blocks m4.next = some (.pointers ([] ++ List.replicate (List.replicate lines.length (known.count true)).length .null)) := by
            rw [k6.same _ (by simp), b5]
            simp
          rcases newEntries_spec releases_up (a := m4.next) (List.replicate lines.length (known.count true)) [] (by simp) (M := {m.next} + ({oa} + ({xa} + ({r} + ({df} + M)))))
              (w6.as (by simp only [ptrBlocks_nil]; abel)) e6 with ⟨m7, y, a7, w7, k7, b7, f7⟩ | ⟨m7, l, a7, l7, j7, w7, b7, k7, n7⟩
          · right; left
            rw [List.length_nil] at a7
            rw [a7, ok_bind]
            simp only [Bool.false_eq_true, if_false]
            obtain ⟨m8, a8, w8, k8, n8⟩ := Within.release (q := .block m4.next) (by simp) w7
            obtain ⟨m9, a9, w9, k9, n9⟩ := Within.release (q := .block xa) (M := {oa} + ({m.next} + ({r} + ({df} + M)))) (by simp) (w8.as (by simp only [MemPtr.blocks]; abel))
            obtain ⟨m10, a10, w10, k10, n10⟩ := Within.release (q := .block oa) (by simp) w9
            obtain ⟨m11, a11, w11, k11, n11⟩ := Within.release (q := .block m.next) (by simp) w10
            obtain ⟨m12, m13, a12, a13, w13, k13⟩ := release_file w11
            have hM11 : M ≤ {m.next} + ({r} + ({df} + M)) := hM.trans (Multiset.le_add_left _ _)
            have hM7 : M ≤ {m.next} + ({oa} + ({xa} + ({r} + ({df} + M)))) := ((hM.trans (Multiset.le_add_left _ _)).trans (Multiset.le_add_left _ _)).trans (Multiset.le_add_left _ _)
            refine ⟨⟨m13, tokens, 0, ?_, w13.as (by simp), by simp, ?_⟩, ?_⟩
            · rw [a8, ok_bind, a9, ok_bind, a10, ok_bind, a11, ok_bind, a12, ok_bind, a13, ok_bind]
            · exact ((((((K6.mono hM).then k7 hM7).then k8 hM7).then k9 (hM11.trans (Multiset.le_add_left _ _))).then k10 hM11).then k11 hM).trans k13
            · obtain ⟨i, hi, _⟩ := f7
              exact ⟨i, by rw [← K6.fails]; exact hi⟩
          · rw [List.length_nil] at a7
            rw [a7, ok_bind]
            simp only [if_true]
            rw [List.nil_append] at w7 b7
            have hR7 : ({r} + ({df} + M) : Multiset Nat) ≤ {m.next} + ({oa} + ({xa} + ({r} + ({df} + M)))) :=
              ((Multiset.le_add_left _ _).trans (Multiset.le_add_left _ _)).trans (Multiset.le_add_left _ _)
            have K7 : m.Keeps m7 ({r} + ({df} + M)) := K6.then k7 hR7
            have d7 : m7.blocks df = some .file := by rw [K7.same df (by simp), hd]
            rcases readLines_spec (df := df) (count_pos_mem hc) lines hl tokens (M := (SEntry.blocks ⟨m.next, xa, .block oa, .block m4.next, l⟩) + ({r} + M))
                (w7.as (by simp only [SEntry.blocks, MemPtr.blocks]; abel)) d7 (hs.keep K7) with ⟨a8, i, hi⟩ | ⟨m8, t8, a8, w8, k8, s8⟩
            · left
              rw [a8]
              exact ⟨rfl, i, by rw [← K7.fails]; exact hi⟩
            · right; right
              rw [a8, ok_bind]
              refine ⟨m8, ⟨m.next, xa, .block oa, .block m4.next, l⟩, t8, rfl, w8.as (by abel), ?_, ?_, s8⟩
              · have g7 : SEntry.Good ⟨m.next, xa, .block oa, .block m4.next, l⟩ m7 lines.length (decide (0 < known.count true)) := by
                  refine ⟨by rw [k7.same _ (by simp), b6], fun _ => ⟨⟨oa, rfl⟩, ⟨_, rfl, b7⟩, by simpa using l7, j7⟩, fun hf => ?_⟩
                  rw [decide_eq_true hc] at hf
                  cases hf
                exact g7.keep (k8.same.mono ((Multiset.le_add_right _ _).trans (Multiset.le_add_left _ _)))
              · refine K7.trans (k8.mono ?_)
                rw [show ({r} + ({df} + M) : Multiset Nat) = {df} + ({r} + M) by abel]
                exact add_le_add_right (Multiset.le_add_left _ _) _
      · right; right
        rw [if_neg hc]
        obtain rfl := o3 hc
        refine ⟨m4, ⟨m.next, xa, .null, .null, []⟩, tokens, rfl, w4.as ?_, ⟨b4, fun hf => absurd (of_decide_eq_true hf) hc, fun _ => ⟨rfl, rfl, rfl⟩⟩, K4, hs.keep K4⟩
        simp only [SEntry.blocks, MemPtr.blocks, ptrBlocks_nil]
        abel

/-- the blocks of several series -/
def entriesBlocks (E : List SEntry) : Multiset Nat := (E.map SEntry.blocks).sum

theorem entriesBlocks_append (E E' : List SEntry) : entriesBlocks (E ++ E') = entriesBlocks E + entriesBlocks E' := by simp [entriesBlocks]

theorem entriesBlocks_single (e : SEntry) : entriesBlocks [e] = e.blocks := by simp [entriesBlocks]

theorem entriesBlocks_mem {E : List SEntry} {e : SEntry} (h : e ∈ E) : e.blocks ≤ entriesBlocks E := by
  induction E with
  | nil => cases h
  | cons u E ih =>
    rw [show entriesBlocks (u :: E) = u.blocks + entriesBlocks E by simp [entriesBlocks]]
    rcases List.mem_cons.1 h with rfl | h
    · exact Multiset.le_add_right _ _
    · exact (ih h).trans (Multiset.le_add_left _ _)

/-- They are series of these lengths. -/
def EntriesGood (m : SeriesMemory) (d : Bool) (E : List SEntry) (series : List (List Nat)) : Prop := List.Forall₂ (fun e (s : List Nat) => e.Good m s.length d) E series

theorem EntriesGood.keep {m m' : SeriesMemory} {d : Bool} {E : List SEntry} {series : List (List Nat)} (h : EntriesGood m d E series) (hs : m.SameOn m' (entriesBlocks E)) :
    EntriesGood m' d E series := by
  unfold EntriesGood at *
  induction h with
  | nil => exact .nil
  | @cons e s E series h1 h2 ih =>
    rw [show entriesBlocks (e :: E) = e.blocks + entriesBlocks E by simp [entriesBlocks]] at hs
    exact .cons (h1.keep (hs.mono (Multiset.le_add_right _ _))) (ih (hs.mono (Multiset.le_add_left _ _)))

theorem EntriesGood.count {m : SeriesMemory} {d : Bool} {E : List SEntry} {series : List (List Nat)} (h : EntriesGood m d E series) :
    (entriesBlocks E).card = (series.map (fun s => (SeriesRecord.series s.length d).blocks)).sum := by
  unfold EntriesGood at h
  induction h with
  | nil => rfl
  | @cons e s E series h1 h2 ih =>
    rw [show entriesBlocks (e :: E) = e.blocks + entriesBlocks E by simp [entriesBlocks], Multiset.card_add, h1.count, ih, List.map_cons, List.sum_cons]

/-- the pointers to the series -/
def entryPtrs (E : List SEntry) : List MemPtr := E.map (fun e => .block e.addr)

theorem readAll_spec {df r : Nat} {known : List Bool} (vars : Nat) (series : List (List Nat)) (hl : ∀ s ∈ series, ∀ n ∈ s, 0 < n ∧ n ≤ known.length) (done : List (List Nat))
    (E : List SEntry) (tokens : MemPtr) {m : SeriesMemory} {M : Multiset Nat} (h : m.Within (entriesBlocks E + ({r} + ({df} + M)))) (hd : m.blocks df = some .file)
    (hr : m.blocks r = some (.pointers (entryPtrs E ++ List.replicate series.length .null))) (hg : EntriesGood m (decide (0 < known.count true)) E done) (hs : Stale m tokens) :
    (readAll vars known (.block df) (.block r) series E.length tokens m = ub ∧ ∃ k, m.fails k = true) ∨
    ((∃ (m' : SeriesMemory) (E' : List SEntry) (L : Multiset Nat) (k : Nat), readAll vars known (.block df) (.block r) series E.length tokens m = ok (false, m') ∧
      k < series.length ∧ m'.Within (L + (entriesBlocks E' + M)) ∧ L.card ≤ 1 ∧ EntriesGood m' (decide (0 < known.count true)) E' (done ++ series.take k) ∧ m.Keeps m' M) ∧
      ∃ k, m.fails k = true) ∨
    (∃ (m' : SeriesMemory) (E' : List SEntry), readAll vars known (.block df) (.block r) series E.length tokens m = ok (true, m') ∧
      m'.Within (entriesBlocks E' + ({r} + ({df} + M))) ∧ m'.blocks r = some (.pointers (entryPtrs E')) ∧ EntriesGood m' (decide (0 < known.count true)) E' (done ++ series) ∧
      m.Keeps m' ({df} + M)) := by
  induction series generalizing done E tokens m with
  | nil => exact Or.inr (Or.inr ⟨m, E, rfl, h, by simpa using hr, by simpa using hg, Keeps.refl _ _⟩)
  | cons lines rest ih =>
    unfold readAll
    have hM : M ≤ entriesBlocks E + M := Multiset.le_add_left _ _
    rcases readOne_spec (df := df) (r := r) vars (M := entriesBlocks E + M) (h.as (by abel)) hd (hl lines (by simp)) hs with
      ⟨a1, f1⟩ | ⟨⟨m1, t1, L, a1, w1, l1, k1⟩, f1⟩ | ⟨m1, e, t1, a1, w1, g1, k1, s1⟩
    · left
      rw [a1]
      exact ⟨rfl, f1⟩
    · right; left
      refine ⟨⟨m1, E, L, 0, ?_, by simp, w1, l1, ?_, k1.mono hM⟩, f1⟩
      · rw [a1, ok_bind]
        rfl
      · simpa using hg.keep (k1.same.mono (Multiset.le_add_right _ _))
    · rw [a1, ok_bind]
      simp only [show (MemPtr.block e.addr == MemPtr.null) = false from rfl, Bool.false_eq_true, if_false]
      have r1 : m1.blocks r = some (.pointers (entryPtrs E ++ List.replicate (rest.length + 1) .null)) := by rw [k1.same r (by simp), hr]; rfl
      have hlen : (entryPtrs E).length = E.length := by simp [entryPtrs]
      obtain ⟨m2, a2, w2, b2, k2, n2⟩ := Within.setEntry (a := r) (M := e.blocks + ({df} + (entriesBlocks E + M))) (w1.as (by abel)) r1 (i := E.length) (by simp [hlen]) (.block e.addr)
      rw [← hlen, set_replicate_null] at b2
      rw [a2, ok_bind]
      have hd2 : ({df} + M : Multiset Nat) ≤ {r} + ({df} + (entriesBlocks E + M)) :=
        (add_le_add_right (Multiset.le_add_left M _) _).trans (Multiset.le_add_left _ _)
      have hd3 : ({df} + M : Multiset Nat) ≤ e.blocks + ({df} + (entriesBlocks E + M)) :=
        (add_le_add_right (Multiset.le_add_left M _) _).trans (Multiset.le_add_left _ _)
      have K2 : m.Keeps m2 ({df} + M) := (k1.mono hd2).then k2 hd3
      have g2 : EntriesGood m2 (decide (0 < known.count true)) (E ++ [e]) (done ++ [lines]) := by
        refine List.rel_append (R := fun (e : SEntry) (s : List Nat) => e.Good m2 s.length (decide (0 < known.count true))) ?_ (.cons ?_ .nil)
        · refine (hg.keep (k1.same.mono ?_)).keep (k2.same.mono ?_)
          · exact ((Multiset.le_add_right _ _).trans (Multiset.le_add_left _ _)).trans (Multiset.le_add_left _ _)
          · exact ((Multiset.le_add_right _ _).trans (Multiset.le_add_left _ _)).trans (Multiset.le_add_left _ _)
        · exact g1.keep (k2.same.mono (Multiset.le_add_right _ _))
      have hl2 : (E ++ [e]).length = E.length + 1 := by simp
      rw [← hl2]
      rcases ih (fun s hs => hl s (by simp [hs])) (done ++ [lines]) (E ++ [e]) t1 (w2.as (by rw [entriesBlocks_append, entriesBlocks_single]; abel))
          (by rw [K2.same df (by simp), hd]) (by rw [b2]; simp [entryPtrs]) g2 (s1.keep k2) with ⟨a3, i, hi⟩ | ⟨⟨m3, E3, L, k, a3, c3, w3, l3, g3, k3⟩, i, hi⟩ | ⟨m3, E3, a3, w3, b3, g3, k3⟩
      · exact Or.inl ⟨a3, i, by rw [← K2.fails]; exact hi⟩
      · refine Or.inr (Or.inl ⟨⟨m3, E3, L, k + 1, a3, by simp; omega, w3, l3, by simpa using g3, (K2.mono (Multiset.le_add_left _ _)).trans k3⟩, i, by rw [← K2.fails]; exact hi⟩)
      · exact Or.inr (Or.inr ⟨m3, E3, a3, w3, b3, by simpa using g3, K2.trans k3⟩)

/-- A file is read completely, or the answer is zero and the series read so far and at most one more block are lost, or what follows is undefined. -/
theorem readSeries_spec {m : SeriesMemory} {M : Multiset Nat} (h : m.Within M) (vars : Nat) (file : FileShape) (hl : ∀ s ∈ file.series, ∀ n ∈ s, 0 < n ∧ n ≤ file.known.length) :
    (m.readSeries vars file = ub ∧ ∃ k, m.fails k = true) ∨
    ((∃ (m' : SeriesMemory) (p : MemPtr) (E : List SEntry) (L : Multiset Nat) (k : Nat), m.readSeries vars file = ok (0, p, m') ∧ k ≤ file.series.length ∧
      (k = file.series.length → file.series = []) ∧
      m'.Within (L + (entriesBlocks E + M)) ∧ L.card ≤ 1 ∧ EntriesGood m' (decide (0 < file.observed)) E (file.series.take k) ∧ m.Keeps m' M) ∧ ∃ k, m.fails k = true) ∨
    (∃ (m' : SeriesMemory) (r : Nat) (E : List SEntry), m.readSeries vars file = ok (file.series.length, .block r, m') ∧ m'.Within (entriesBlocks E + ({r} + M)) ∧
      m'.blocks r = some (.pointers (entryPtrs E)) ∧ EntriesGood m' (decide (0 < file.observed)) E file.series ∧ m.Keeps m' M) := by
  unfold Store.readSeries
  have nothing : ∀ {m' : SeriesMemory}, m'.Within M → m.Keeps m' M → ∃ (E : List SEntry) (L : Multiset Nat) (k : Nat), k ≤ file.series.length ∧ (k = file.series.length → file.series = []) ∧
      m'.Within (L + (entriesBlocks E + M)) ∧ L.card ≤ 1 ∧ EntriesGood m' (decide (0 < file.observed)) E (file.series.take k) ∧ m.Keeps m' M := by
    intro m' w k
    refine ⟨[], 0, 0, by simp, fun e => List.length_eq_zero_iff.1 e.symm, w.as (by simp [entriesBlocks]), by simp, ?_, k⟩
    rw [List.take_zero]
    exact .nil
  rcases h.any .file with ⟨m1, a1, f1, w1, k1, n1⟩ | ⟨m1, a1, f1, w1, b1, k1, n1⟩
  · right; left
    obtain ⟨E, L, k, hx⟩ := nothing w1 k1
    exact ⟨⟨m1, .null, E, L, k, by rw [a1]; rfl, hx⟩, _, f1⟩
  · rw [a1]
    simp only [show (MemPtr.block m.next == MemPtr.null) = false from rfl, Bool.false_eq_true, if_false]
    have hM1 : M ≤ {m.next} + M := Multiset.le_add_left _ _
    rcases w1.any (.pointers (List.replicate file.series.length .null)) with ⟨m2, a2, f2, w2, k2, n2⟩ | ⟨m2, a2, f2, w2, b2, k2, n2⟩
    · right; left
      obtain ⟨m3, a3, w3, k3, n3⟩ := Within.release (q := .block m.next) (by simp) w2
      obtain ⟨E, L, k, hx⟩ := nothing w3 ((k1.then k2 hM1).trans k3)
      refine ⟨⟨m3, .null, E, L, k, ?_, hx⟩, _, by rw [← k1.fails]; exact f2⟩
      rw [a2]
      simp [a3]
    · rw [a2]
      simp only [show (MemPtr.block m1.next == MemPtr.null) = false from rfl, Bool.false_eq_true, if_false]
      have K2 : m.Keeps m2 M := k1.then k2 hM1
      rcases readAll_spec (df := m.next) (r := m1.next) (known := file.known) vars file.series hl [] [] .null (M := M) (w2.as (by simp [entriesBlocks]))
          (by rw [k2.same _ (by simp), b1]) (by simpa [entryPtrs] using b2) .nil (by rintro a ⟨⟩) with
        ⟨a3, i, hi⟩ | ⟨⟨m3, E, L, k, a3, c3, w3, l3, g3, k3⟩, i, hi⟩ | ⟨m3, E, a3, w3, b3, g3, k3⟩
      · left
        rw [List.length_nil] at a3
        rw [a3]
        exact ⟨rfl, i, by rw [← K2.fails]; exact hi⟩
      · right; left
        rw [List.length_nil] at a3
        refine ⟨⟨m3, .block m1.next, E, L, k, ?_, by omega, fun e => by omega, w3, l3, by rw [List.nil_append] at g3; exact g3, K2.trans k3⟩, i, by rw [← K2.fails]; exact hi⟩
        rw [a3, ok_bind]
        rfl
      · right; right
        rw [List.length_nil] at a3
        obtain ⟨m4, a4, w4, k4, n4⟩ := Within.release (q := .block m.next) (M := entriesBlocks E + ({m1.next} + M)) (by simp) (w3.as (by simp only [MemPtr.blocks]; abel))
        refine ⟨m4, m1.next, E, ?_, w4, by rw [k4.same _ (by simp), b3], ?_, ?_⟩
        · rw [a3, ok_bind]
          simp [a4]
        · exact (show EntriesGood m3 (decide (0 < file.observed)) E file.series by rw [List.nil_append] at g3; exact g3).keep (k4.same.mono (Multiset.le_add_right _ _))
        · exact (K2.then k3 (Multiset.le_add_left _ _)).then k4 ((Multiset.le_add_left _ _).trans (Multiset.le_add_left _ _))

end Nip
