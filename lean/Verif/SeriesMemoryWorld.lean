import Verif.SeriesMemoryRead

/-!
# Lemmas about histories of calls on series and results
-/

namespace Nip

open Res Spec Store

/-- what the program has got: a pointer and the blocks that belong to it -/
structure SObject where
  ptr : MemPtr
  blocks : Multiset Nat

/-- It is what the ledger says. -/
def SObject.Good (o : SObject) (m : SeriesMemory) : SeriesRecord → Prop
  | .array => ∃ a, o.ptr = .block a ∧ o.blocks = {a}
  | .series n d => ∃ e : SEntry, o.ptr = .block e.addr ∧ o.blocks = e.blocks ∧ e.Good m n d
  | .results k n => ∃ e : REntry, o.ptr = .block e.addr ∧ o.blocks = e.blocks ∧ e.Good m k n
  | .nothing => o.ptr = .null ∧ o.blocks = 0
  | .freed => o.blocks = 0

theorem SObject.Good.keep {o : SObject} {m m' : SeriesMemory} {r : SeriesRecord} (h : o.Good m r) (hs : m.SameOn m' o.blocks) : o.Good m' r := by
  cases r with
  | array => exact h
  | series n d =>
    obtain ⟨e, h1, h2, h3⟩ := h
    exact ⟨e, h1, h2, h3.keep (h2 ▸ hs)⟩
  | results k n =>
    obtain ⟨e, h1, h2, h3⟩ := h
    exact ⟨e, h1, h2, h3.keep (h2 ▸ hs)⟩
  | nothing => exact h
  | freed => exact h

theorem SObject.Good.count {o : SObject} {m : SeriesMemory} {r : SeriesRecord} (h : o.Good m r) : o.blocks.card = r.blocks := by
  cases r with
  | array =>
    obtain ⟨a, _, h⟩ := h
    rw [h]; rfl
  | series n d =>
    obtain ⟨e, _, h2, h3⟩ := h
    rw [h2, h3.count]
  | results k n =>
    obtain ⟨e, _, h2, h3⟩ := h
    rw [h2, h3.count]
  | nothing => rw [h.2]; rfl
  | freed => rw [show o.blocks = 0 from h]; rfl

/-- the blocks of all that the program has got -/
def objectsBlocks (O : List SObject) : Multiset Nat := (O.map SObject.blocks).sum

theorem objectsBlocks_append (O O' : List SObject) : objectsBlocks (O ++ O') = objectsBlocks O + objectsBlocks O' := by simp [objectsBlocks]

theorem objectsBlocks_cons (o : SObject) (O : List SObject) : objectsBlocks (o :: O) = o.blocks + objectsBlocks O := by simp [objectsBlocks]

theorem objectsBlocks_nil : objectsBlocks [] = 0 := rfl

/-- All of it is what the ledger says. -/
def ObjectsGood (m : SeriesMemory) (O : List SObject) (l : SeriesLedger) : Prop := List.Forall₂ (fun o r => o.Good m r) O l

theorem ObjectsGood.keep {m m' : SeriesMemory} {O : List SObject} {l : SeriesLedger} (h : ObjectsGood m O l) (hs : m.SameOn m' (objectsBlocks O)) : ObjectsGood m' O l := by
  unfold ObjectsGood at *
  induction h with
  | nil => exact .nil
  | @cons o r O l h1 h2 ih =>
    rw [objectsBlocks_cons] at hs
    exact .cons (h1.keep (hs.mono (Multiset.le_add_right _ _))) (ih (hs.mono (Multiset.le_add_left _ _)))

theorem ObjectsGood.count {m : SeriesMemory} {O : List SObject} {l : SeriesLedger} (h : ObjectsGood m O l) : (objectsBlocks O).card = l.blocks := by
  unfold ObjectsGood at h
  unfold SeriesLedger.blocks
  induction h with
  | nil => rfl
  | @cons o r O l h1 h2 ih => rw [objectsBlocks_cons, Multiset.card_add, h1.count, ih, List.map_cons, List.sum_cons]

theorem ObjectsGood.append {m : SeriesMemory} {O O' : List SObject} {l l' : SeriesLedger} (h : ObjectsGood m O l) (h' : ObjectsGood m O' l') : ObjectsGood m (O ++ O') (l ++ l') :=
  List.rel_append (R := fun (o : SObject) r => o.Good m r) h h'

theorem ObjectsGood.split {m : SeriesMemory} {O : List SObject} {l : SeriesLedger} (h : ObjectsGood m O l) {v : Nat} {r : SeriesRecord} (hv : l[v]? = some r) :
    ∃ O1 o O2 l1 l2, O = O1 ++ o :: O2 ∧ l = l1 ++ r :: l2 ∧ O1.length = v ∧ l1.length = v ∧ ObjectsGood m O1 l1 ∧ o.Good m r ∧ ObjectsGood m O2 l2 := by
  unfold ObjectsGood at *
  induction h generalizing v with
  | nil => simp at hv
  | @cons o r' O l h1 h2 ih =>
    cases v with
    | zero =>
      rw [List.getElem?_cons_zero] at hv
      cases hv
      exact ⟨[], o, O, [], l, rfl, rfl, rfl, rfl, .nil, h1, h2⟩
    | succ v =>
      rw [List.getElem?_cons_succ] at hv
      obtain ⟨O1, o', O2, l1, l2, rfl, rfl, e3, e4, g1, g2, g3⟩ := ih hv
      exact ⟨o :: O1, o', O2, r' :: l1, l2, rfl, rfl, by simp [e3], by simp [e4], .cons h1 g1, g2, g3⟩

theorem modify_middle {α : Type} (l1 l2 : List α) (r : α) (f : α → α) {v : Nat} (hv : l1.length = v) : (l1 ++ r :: l2).modify v f = l1 ++ f r :: l2 := by
  subst hv
  induction l1 with
  | nil => rfl
  | cons a l1 ih =>
    rw [List.cons_append, List.length_cons, List.modify_succ_cons, ih]
    rfl

/-- What is true after every call. -/
structure SeriesWorld.Inv (w : SeriesWorld) (l : SeriesLedger) (O : List SObject) : Prop where
  within : w.mem.Within (objectsBlocks O)
  handles : w.handles = O.map SObject.ptr
  good : ObjectsGood w.mem O l
  fails : ∀ k, w.mem.fails k = false

theorem SeriesWorld.Inv.inUse {w : SeriesWorld} {l : SeriesLedger} {O : List SObject} (h : w.Inv l O) : w.mem.inUse = l.blocks := by rw [h.within.count, h.good.count]

theorem SeriesWorld.inv_start {fails : Nat → Bool} (hf : ∀ k, fails k = false) : (SeriesWorld.start fails).Inv [] [] :=
  ⟨⟨Multiset.nodup_zero, fun b => by simp [SeriesWorld.start, Store.empty, objectsBlocks], fun b hb => by simp [objectsBlocks] at hb⟩, rfl, .nil, hf⟩

theorem rd_handles {O1 O2 : List SObject} {o : SObject} {v : Nat} (hv : O1.length = v) : rd ((O1 ++ o :: O2).map SObject.ptr) v = ok o.ptr := by
  subst hv
  rw [rd_lt (by simp)]
  simp

/-- One more thing. -/
theorem SeriesWorld.Inv.more {w : SeriesWorld} {l : SeriesLedger} {O : List SObject} (h : w.Inv l O) {m' : SeriesMemory} {o : SObject} {r : SeriesRecord}
    (hw : m'.Within (o.blocks + objectsBlocks O)) (hk : w.mem.Keeps m' (objectsBlocks O)) (hg : o.Good m' r) :
    SeriesWorld.Inv { mem := m', handles := w.handles ++ [o.ptr] } (l ++ [r]) (O ++ [o]) := by
  refine ⟨hw.as ?_, by simp [h.handles], (h.good.keep hk.same).append (.cons hg .nil), fun k => by rw [hk.fails]; exact h.fails k⟩
  rw [objectsBlocks_append, objectsBlocks_cons, objectsBlocks_nil, add_zero, add_comm]

/-- A thing is freed. -/
theorem SeriesWorld.Inv.less {w : SeriesWorld} {O1 O2 : List SObject} {o : SObject} {l1 l2 : SeriesLedger} {r : SeriesRecord} (h : w.Inv (l1 ++ r :: l2) (O1 ++ o :: O2))
    (h1 : ObjectsGood w.mem O1 l1) (h2 : ObjectsGood w.mem O2 l2) {m' : SeriesMemory} (hw : m'.Within (objectsBlocks O1 + objectsBlocks O2)) (hk : w.mem.Keeps m' (objectsBlocks O1 + objectsBlocks O2)) :
    SeriesWorld.Inv { mem := m', handles := w.handles } (l1 ++ .freed :: l2) (O1 ++ ⟨o.ptr, 0⟩ :: O2) := by
  refine ⟨hw.as ?_, by simp [h.handles], ?_, fun k => by rw [hk.fails]; exact h.fails k⟩
  · rw [objectsBlocks_append, objectsBlocks_cons, zero_add]
  · exact (h1.keep (hk.same.mono (Multiset.le_add_right _ _))).append (.cons rfl (h2.keep (hk.same.mono (Multiset.le_add_left _ _))))

theorem lengthOf_eq {l : SeriesLedger} {v n : Nat} {d : Bool} (h : l[v]? = some (.series n d)) : l.lengthOf v = n := by
  unfold SeriesLedger.lengthOf
  rw [h]

/-- the things got from a file -/
def fileObjects (r : Nat) (E : List SEntry) : List SObject := ⟨.block r, {r}⟩ :: E.map (fun e => ⟨.block e.addr, e.blocks⟩)

theorem fileObjects_blocks (r : Nat) (E : List SEntry) : objectsBlocks (fileObjects r E) = {r} + entriesBlocks E := by
  unfold fileObjects
  rw [objectsBlocks_cons]
  unfold objectsBlocks entriesBlocks
  rw [List.map_map]
  rfl

theorem fileObjects_good {m : SeriesMemory} {d : Bool} {r : Nat} {E : List SEntry} {series : List (List Nat)} (h : EntriesGood m d E series) :
    ObjectsGood m (fileObjects r E) (.array :: series.map (fun s => .series s.length d)) := by
  refine .cons ⟨r, rfl, rfl⟩ ?_
  unfold EntriesGood at h
  induction h with
  | nil => exact .nil
  | @cons e s E series h1 h2 ih => exact .cons ⟨e, rfl, rfl, h1⟩ ih

theorem EntriesGood.length {m : SeriesMemory} {d : Bool} {E : List SEntry} {series : List (List Nat)} (h : EntriesGood m d E series) : E.length = series.length :=
  List.Forall₂.length_eq h

theorem SeriesWorld.Inv.series {w : SeriesWorld} {l : SeriesLedger} {O : List SObject} (h : w.Inv l O) {v n : Nat} {d : Bool} (hv : l[v]? = some (.series n d)) :
    ∃ (a : Nat) (c : SeriesCell), rd w.handles v = ok (.block a) ∧ a ∈ objectsBlocks O ∧ w.mem.blocks a = some (.series c) ∧ c.length = n := by
  obtain ⟨O1, o, O2, l1, l2, rfl, rfl, e3, e4, g1, ⟨e, p1, p2, p3⟩, g3⟩ := h.good.split hv
  refine ⟨e.addr, _, by rw [h.handles, rd_handles e3, p1], ?_, p3.cell, rfl⟩
  rw [objectsBlocks_append, objectsBlocks_cons, p2]
  simp [SEntry.blocks]

theorem SeriesWorld.Inv.step {w : SeriesWorld} {l : SeriesLedger} {O : List SObject} (h : w.Inv l O) (a : SeriesCall) (ha : a.Allowed l) :
    ∃ w' O', w.step a = ok w' ∧ w'.Inv (l.after a) O' := by
  have nofail : ¬ ∃ k, w.mem.fails k = true := by
    rintro ⟨k, hk⟩
    rw [h.fails k] at hk
    cases hk
  cases a with
  | read vars file =>
    rcases readSeries_spec h.within vars file ha.2 with ⟨_, f⟩ | ⟨_, f⟩ | ⟨m1, r, E, a1, w1, b1, g1, k1⟩
    · exact absurd f nofail
    · exact absurd f nofail
    · refine ⟨{ mem := m1, handles := w.handles ++ .block r :: entryPtrs E }, O ++ fileObjects r E, ?_, ?_⟩
      · unfold SeriesWorld.step
        simp only []
        rw [a1, ok_bind]
        simp only []
        rw [pointersAt_eq b1, ok_bind, if_pos (by simp [entryPtrs, g1.length])]
      · refine ⟨w1.as ?_, ?_, (h.good.keep k1.same).append (fileObjects_good g1), fun k => by rw [k1.fails]; exact h.fails k⟩
        · rw [objectsBlocks_append, fileObjects_blocks]
          abel
        · simp only [h.handles, List.map_append, fileObjects, List.map_cons, List.map_map, entryPtrs]
          rfl
  | filter interface cards v good =>
    obtain ⟨n, d, hv⟩ := ha
    obtain ⟨ts, c, p1, p2, p3, p4⟩ := h.series hv
    simp only [SeriesLedger.after, lengthOf_eq hv, SeriesWorld.step, p1, ok_bind]
    rcases filterMemory_spec h.within interface cards (seriesAt_eq p3) good with ⟨m1, a1, w1, k1, f1⟩ | ⟨hgood, m1, e, a1, w1, g1, k1⟩
    · have hg : good = false := by
        cases good with
        | false => rfl
        | true => exact absurd (f1 rfl) nofail
      subst hg
      rw [a1, ok_bind, if_neg (by simp)]
      exact ⟨_, O ++ [⟨.null, 0⟩], rfl, h.more (o := ⟨.null, 0⟩) (r := .nothing) (w1.as (by simp)) k1 ⟨rfl, rfl⟩⟩
    · subst hgood
      rw [a1, ok_bind, if_pos rfl]
      exact ⟨_, O ++ [⟨.block e.addr, e.blocks⟩], rfl, h.more (o := ⟨.block e.addr, e.blocks⟩) (r := .results cards.length n) w1 k1 ⟨e, rfl, rfl, p4 ▸ g1⟩⟩
  | smooth interface cards v good =>
    obtain ⟨n, d, hv⟩ := ha
    obtain ⟨ts, c, p1, p2, p3, p4⟩ := h.series hv
    simp only [SeriesLedger.after, lengthOf_eq hv, SeriesWorld.step, p1, ok_bind]
    rcases smoothMemory_spec h.within interface cards (seriesAt_eq p3) good (h.fails _) with ⟨m1, a1, w1, k1, f1⟩ | ⟨hgood, m1, e, a1, w1, g1, k1⟩
    · have hg : good = false := by
        cases good with
        | false => rfl
        | true => exact absurd (f1 rfl) nofail
      subst hg
      rw [a1, ok_bind, if_neg (by simp)]
      exact ⟨_, O ++ [⟨.null, 0⟩], rfl, h.more (o := ⟨.null, 0⟩) (r := .nothing) (w1.as (by simp)) k1 ⟨rfl, rfl⟩⟩
    · subst hgood
      rw [a1, ok_bind, if_pos rfl]
      exact ⟨_, O ++ [⟨.block e.addr, e.blocks⟩], rfl, h.more (o := ⟨.block e.addr, e.blocks⟩) (r := .results cards.length n) w1 k1 ⟨e, rfl, rfl, p4 ▸ g1⟩⟩
  | mlss vars asked v =>
    obtain ⟨_, n, d, hv⟩ := ha
    obtain ⟨ts, c, p1, p2, p3, p4⟩ := h.series hv
    simp only [SeriesLedger.after, lengthOf_eq hv, SeriesWorld.step, p1, ok_bind]
    rcases mostLikely_spec h.within vars asked p2 p3 with ⟨_, _, _, _, f⟩ | ⟨m1, e, a1, w1, g1, k1⟩
    · exact absurd f nofail
    · rw [a1, ok_bind]
      exact ⟨_, O ++ [⟨.block e.addr, e.blocks⟩], rfl, h.more (o := ⟨.block e.addr, e.blocks⟩) (r := .series n true) w1 k1 ⟨e, rfl, rfl, p4 ▸ g1⟩⟩
  | freeSeries v =>
    rcases ha with hv | ⟨n, d, hv⟩
    · obtain ⟨O1, o, O2, l1, l2, rfl, rfl, e3, e4, g1, ⟨p1, p2⟩, g3⟩ := h.good.split hv
      simp only [SeriesLedger.after, modify_middle _ _ _ _ e4, SeriesWorld.step, h.handles, rd_handles e3, ok_bind, p1]
      exact ⟨_, _, rfl, ⟨h.within, rfl, h.good, h.fails⟩⟩
    · obtain ⟨O1, o, O2, l1, l2, rfl, rfl, e3, e4, g1, ⟨e, p1, p2, p3⟩, g3⟩ := h.good.split hv
      obtain ⟨m1, a1, w1, k1⟩ := freeSeries_spec (e := e) (M := objectsBlocks O1 + objectsBlocks O2) (h.within.as (by rw [objectsBlocks_append, objectsBlocks_cons, p2]; abel)) p3
      simp only [SeriesLedger.after, modify_middle _ _ _ _ e4, SeriesWorld.step]
      refine ⟨_, _, ?_, h.less g1 g3 w1 k1⟩
      rw [h.handles, rd_handles e3, ok_bind, p1, a1, ok_bind]
  | freeResults v =>
    rcases ha with hv | ⟨n, d, hv⟩
    · obtain ⟨O1, o, O2, l1, l2, rfl, rfl, e3, e4, g1, ⟨p1, p2⟩, g3⟩ := h.good.split hv
      simp only [SeriesLedger.after, modify_middle _ _ _ _ e4, SeriesWorld.step, h.handles, rd_handles e3, ok_bind, p1]
      exact ⟨_, _, rfl, ⟨h.within, rfl, h.good, h.fails⟩⟩
    · obtain ⟨O1, o, O2, l1, l2, rfl, rfl, e3, e4, g1, ⟨e, p1, p2, p3⟩, g3⟩ := h.good.split hv
      obtain ⟨m1, a1, w1, k1, _⟩ := freeResults_spec (e := e) (M := objectsBlocks O1 + objectsBlocks O2) (h.within.as (by rw [objectsBlocks_append, objectsBlocks_cons, p2]; abel)) p3
      simp only [SeriesLedger.after, modify_middle _ _ _ _ e4, SeriesWorld.step]
      refine ⟨_, _, ?_, h.less g1 g3 w1 k1⟩
      rw [h.handles, rd_handles e3, ok_bind, p1, a1, ok_bind]
  | freeArray v =>
    obtain ⟨O1, o, O2, l1, l2, rfl, rfl, e3, e4, g1, ⟨b, p1, p2⟩, g3⟩ := h.good.split (show l[v]? = some .array from ha)
    obtain ⟨m1, a1, w1, k1, _⟩ := Within.release (q := .block b) (M := objectsBlocks O1 + objectsBlocks O2) (by simp)
      (h.within.as (by rw [objectsBlocks_append, objectsBlocks_cons, p2]; simp only [MemPtr.blocks]; abel))
    simp only [SeriesLedger.after, modify_middle _ _ _ _ e4, SeriesWorld.step]
    refine ⟨_, _, ?_, h.less g1 g3 w1 k1⟩
    rw [h.handles, rd_handles e3, ok_bind, p1, a1, ok_bind]

theorem SeriesWorld.Inv.run {w : SeriesWorld} {l : SeriesLedger} {O : List SObject} (h : w.Inv l O) (calls : List SeriesCall) (ht : SeriesTidy l calls) :
    ∃ w' O', w.run calls = ok w' ∧ w'.Inv (l.final calls) O' := by
  induction calls generalizing w l O with
  | nil => exact ⟨w, O, rfl, h⟩
  | cons a calls ih =>
    obtain ⟨w1, O1, e1, i1⟩ := h.step a ht.1
    obtain ⟨w2, O2, e2, i2⟩ := ih i1 ht.2
    exact ⟨w2, O2, by unfold SeriesWorld.run; rw [e1, ok_bind, e2], i2⟩

end Nip
