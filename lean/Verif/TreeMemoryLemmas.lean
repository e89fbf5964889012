import Verif.TreeMemory
import Mathlib.Data.List.Perm.Subperm

/-!
# Doubly linked lists in the store
-/

namespace Nip

open Res

/-- the address of the first cell, or `next` -/
def firstOf (l : List (Nat × Nat)) (next : Option Nat) : Option Nat :=
  match l with
  | [] => next
  | x :: _ => some x.1

/-- the address of the last cell, or `prev` -/
def lastOf (prev : Option Nat) : List (Nat × Nat) → Option Nat
  | [] => prev
  | x :: l => lastOf (some x.1) l

/-- the addresses -/
def keysOf (l : List (Nat × Nat)) : List Nat := l.map (fun x => x.1)

/-- a piece of a list in the store: addresses with what is stored -/
def Seg (m : Nat → Option LinkCell) (prev next : Option Nat) : List (Nat × Nat) → Prop
  | [] => True
  | x :: l => m x.1 = some { data := x.2, fwd := firstOf l next, bwd := prev } ∧ Seg m (some x.1) next l

theorem firstOf_append (l1 l2 : List (Nat × Nat)) (n : Option Nat) : firstOf (l1 ++ l2) n = firstOf l1 (firstOf l2 n) := by
  cases l1 <;> rfl

theorem seg_append {m : Nat → Option LinkCell} {n : Option Nat} (l2 : List (Nat × Nat)) : ∀ (l1 : List (Nat × Nat)) (p : Option Nat),
    Seg m p n (l1 ++ l2) ↔ Seg m p (firstOf l2 n) l1 ∧ Seg m (lastOf p l1) n l2
  | [], p => by simp [Seg, lastOf]
  | x :: l1, p => by
    rw [List.cons_append, Seg, seg_append l2 l1, firstOf_append, Seg, lastOf, and_assoc]

theorem seg_congr {m m' : Nat → Option LinkCell} {n : Option Nat} : ∀ (l : List (Nat × Nat)) {p : Option Nat}, (∀ k ∈ keysOf l, m' k = m k) → Seg m p n l → Seg m' p n l
  | [], _, _, _ => trivial
  | x :: l, p, h, hs => ⟨by rw [h x.1 (by simp [keysOf]), hs.1], seg_congr l (fun k hk => h k (by simp only [keysOf, List.map_cons, List.mem_cons] at hk ⊢; exact Or.inr hk)) hs.2⟩

theorem seg_some {m : Nat → Option LinkCell} {n : Option Nat} : ∀ (l : List (Nat × Nat)) {p : Option Nat}, Seg m p n l → ∀ k ∈ keysOf l, m k ≠ none
  | [], _, _, k, hk => by simp [keysOf] at hk
  | x :: l, p, h, k, hk => by
    simp only [keysOf, List.map_cons, List.mem_cons] at hk
    rcases hk with rfl | hk
    · rw [h.1]; simp
    · exact seg_some l h.2 k hk

theorem lastOf_snoc (l : List (Nat × Nat)) (x : Nat × Nat) : ∀ p, lastOf p (l ++ [x]) = some x.1 := by
  induction l with
  | nil => intro p; rfl
  | cons y l ih => intro p; exact ih _

/-- The cliques that are there, with their lists; every cell is in exactly one of them, except the loose ones. -/
structure Heaped (st : TreeStore) (alive : List Nat) (chain : Nat → List (Nat × Nat)) (loose : List Nat) : Prop where
  cliques : ∀ c, st.cliques c = if c ∈ alive then some (firstOf (chain c) none) else none
  seg : ∀ c, Seg st.cells none none (chain c)
  keys : ∀ c, (keysOf (chain c)).Nodup
  apart : ∀ c d, c ≠ d → ∀ k ∈ keysOf (chain c), k ∉ keysOf (chain d)
  only : ∀ k, st.cells k ≠ none → (∃ c, k ∈ keysOf (chain c)) ∨ k ∈ loose
  loose : ∀ k ∈ loose, st.cells k ≠ none ∧ ∀ c, k ∉ keysOf (chain c)
  bound : ∀ k, st.cells k ≠ none → k < st.nCells
  dead : ∀ c, c ∉ alive → chain c = []

/-- nothing but cells and lists has changed -/
structure SameRest (st st' : TreeStore) : Prop where
  seps : st'.seps = st.seps
  nSeps : st'.nSeps = st.nSeps
  nCliques : st'.nCliques = st.nCliques
  nCells : st'.nCells = st.nCells

theorem fetch_some {α : Type} {m : Nat → Option α} {i : Nat} {x : α} (h : m i = some x) : fetch m i = ok x := by
  unfold fetch
  rw [h]

theorem unlink_ok {st : TreeStore} {alive : List Nat} {chain : Nat → List (Nat × Nat)} (h : Heaped st alive chain []) {c k s : Nat} (hc : c ∈ alive)
    {l1 l2 : List (Nat × Nat)} (hl : chain c = l1 ++ (k, s) :: l2) :
    ∃ st', st.unlink c k = ok st' ∧ Heaped st' alive (Function.update chain c (l1 ++ l2)) [] ∧ SameRest st st' := by
  have hseg := h.seg c
  rw [hl, seg_append] at hseg
  obtain ⟨hs1, hk, hs2⟩ := hseg
  replace hs1 : Seg st.cells none (some k) l1 := hs1
  replace hk : st.cells k = some { data := s, fwd := firstOf l2 none, bwd := lastOf none l1 } := hk
  replace hs2 : Seg st.cells (some k) none l2 := hs2
  have hnd := h.keys c
  rw [hl] at hnd
  simp only [keysOf, List.map_append, List.map_cons, List.nodup_append, List.nodup_cons] at hnd
  obtain ⟨nd1, ⟨kn2, nd2⟩, cross⟩ := hnd
  have kn1 : k ∉ keysOf l1 := fun hk => (cross k hk k (by simp)) rfl
  have x12 : ∀ j ∈ keysOf l1, j ∉ keysOf l2 := fun j hj hj' => (cross j hj j (by right; exact hj')) rfl
  -- the cell before
  have step1 : ∃ st1 : TreeStore, st.setBefore c { data := s, fwd := firstOf l2 none, bwd := lastOf none l1 } = ok st1 ∧
      Seg st1.cells none (firstOf l2 none) l1 ∧ (∀ j, j ∉ keysOf l1 → st1.cells j = st.cells j) ∧ (∀ j, st1.cells j = none ↔ st.cells j = none) ∧
      st1.cliques = Function.update st.cliques c (some (firstOf (l1 ++ l2) none)) ∧ SameRest st st1 := by
    rcases List.eq_nil_or_concat l1 with rfl | ⟨l1', ⟨b, t⟩, rfl⟩
    · refine ⟨{ st with cliques := Function.update st.cliques c (some (firstOf l2 none)) }, ?_, trivial, fun _ _ => rfl, fun _ => Iff.rfl, rfl, ⟨rfl, rfl, rfl, rfl⟩⟩
      simp only [TreeStore.setBefore, lastOf]
      rw [fetch_some (x := firstOf (chain c) none) (by rw [h.cliques, if_pos hc])]
      rfl
    · rw [List.concat_eq_append] at *
      rw [seg_append] at hs1
      obtain ⟨ha, hb, _⟩ := hs1
      have hbn : b ∉ keysOf l1' := by
        simp only [List.map_append, List.nodup_append] at nd1
        exact fun hb => nd1.2.2 b hb b (by simp) rfl
      refine ⟨{ st with cells := Function.update st.cells b (some { data := t, fwd := firstOf l2 none, bwd := lastOf none l1' }) }, ?_, ?_, ?_, ?_, ?_, ⟨rfl, rfl, rfl, rfl⟩⟩
      · unfold TreeStore.setBefore
        rw [lastOf_snoc]
        simp only
        rw [fetch_some hb]
        rfl
      · rw [seg_append]
        refine ⟨seg_congr _ ?_ ha, ?_, trivial⟩
        · intro j hj
          exact Function.update_of_ne (by rintro rfl; exact hbn hj) _ _
        · simp [firstOf]
      · intro j hj
        exact Function.update_of_ne (by rintro rfl; exact hj (by simp [keysOf])) _ _
      · intro j
        by_cases hj : j = b
        · subst hj
          simp [hb]
        · simp only [Function.update_of_ne hj]
      · have he : firstOf (l1' ++ [(b, t)] ++ l2) none = firstOf (chain c) none := by
          rw [hl]
          cases l1' <;> rfl
        rw [he]
        have : some (firstOf (chain c) none) = st.cliques c := by rw [h.cliques, if_pos hc]
        rw [this, Function.update_eq_self]
  obtain ⟨st1, e1, f1, f2, f3, f4, f5⟩ := step1
  have hk1 : st1.cells k = some { data := s, fwd := firstOf l2 none, bwd := lastOf none l1 } := by rw [f2 k kn1, hk]
  have hs2' : Seg st1.cells (some k) none l2 := seg_congr _ (fun j hj => f2 j (fun hj' => x12 j hj' hj)) hs2
  -- the cell behind
  have step2 : ∃ st2 : TreeStore, st1.setBehind { data := s, fwd := firstOf l2 none, bwd := lastOf none l1 } = ok st2 ∧
      Seg st2.cells (lastOf none l1) none l2 ∧ (∀ j, j ∉ keysOf l2 → st2.cells j = st1.cells j) ∧ (∀ j, st2.cells j = none ↔ st1.cells j = none) ∧
      st2.cliques = st1.cliques ∧ SameRest st1 st2 := by
    cases l2 with
    | nil => exact ⟨st1, rfl, trivial, fun _ _ => rfl, fun _ => Iff.rfl, rfl, ⟨rfl, rfl, rfl, rfl⟩⟩
    | cons x l2 =>
      obtain ⟨f, u⟩ := x
      obtain ⟨hf, hr⟩ := hs2'
      have hfn : f ∉ keysOf l2 := by
        simp only [List.map_cons, List.nodup_cons] at nd2
        exact nd2.1
      refine ⟨{ st1 with cells := Function.update st1.cells f (some { data := u, fwd := firstOf l2 none, bwd := lastOf none l1 }) }, ?_, ⟨?_, ?_⟩, ?_, ?_, rfl, ⟨rfl, rfl, rfl, rfl⟩⟩
      · simp only [TreeStore.setBehind, firstOf]
        rw [fetch_some hf]
        rfl
      · simp
      · refine seg_congr _ ?_ hr
        intro j hj
        exact Function.update_of_ne (by rintro rfl; exact hfn hj) _ _
      · intro j hj
        exact Function.update_of_ne (by rintro rfl; exact hj (by simp [keysOf])) _ _
      · intro j
        by_cases hj : j = f
        · subst hj
          simp [hf]
        · simp only [Function.update_of_ne hj]
  obtain ⟨st2, e2, g1, g2, g3, g4, g5⟩ := step2
  have hk2 : st2.cells k = some { data := s, fwd := firstOf l2 none, bwd := lastOf none l1 } := by rw [g2 k kn2, hk1]
  have same3 : ∀ j, j ∉ keysOf (chain c) → Function.update st2.cells k none j = st.cells j := by
    intro j hj
    rw [hl] at hj
    simp only [keysOf, List.map_append, List.map_cons, List.mem_append, List.mem_cons, not_or] at hj
    rw [Function.update_of_ne hj.2.1, g2 j hj.2.2, f2 j hj.1]
  have hnone : ∀ j, Function.update st2.cells k none j ≠ none → st.cells j ≠ none ∧ j ≠ k := by
    intro j hj
    by_cases he : j = k
    · subst he
      simp at hj
    · rw [Function.update_of_ne he] at hj
      exact ⟨fun hn => hj ((g3 j).2 ((f3 j).2 hn)), he⟩
  refine ⟨{ st2 with cells := Function.update st2.cells k none }, ?_, ⟨?_, ?_, ?_, ?_, ?_, by simp, ?_, ?_⟩, ⟨by rw [g5.seps, f5.seps], by rw [g5.nSeps, f5.nSeps], by rw [g5.nCliques, f5.nCliques], by rw [g5.nCells, f5.nCells]⟩⟩
  · unfold TreeStore.unlink
    rw [fetch_some hk]
    simp only [ok_bind]
    rw [e1]
    simp only [ok_bind]
    rw [fetch_some hk1]
    simp only [ok_bind]
    rw [e2]
    simp only [ok_bind]
    rw [fetch_some hk2]
    rfl
  · intro d
    show st2.cliques d = _
    rw [g4, f4]
    by_cases hd : d = c
    · subst hd
      rw [Function.update_self, Function.update_self, if_pos hc]
    · rw [Function.update_of_ne hd, Function.update_of_ne hd, h.cliques]
  · intro d
    by_cases hd : d = c
    · subst hd
      rw [Function.update_self, seg_append]
      refine ⟨seg_congr _ ?_ f1, seg_congr _ ?_ g1⟩
      · intro j hj
        show Function.update st2.cells k none j = _
        rw [Function.update_of_ne (by rintro rfl; exact kn1 hj), g2 j (x12 j hj)]
      · intro j hj
        exact Function.update_of_ne (by rintro rfl; exact kn2 hj) _ _
    · rw [Function.update_of_ne hd]
      exact seg_congr _ (fun j hj => same3 j (h.apart d c hd j hj)) (h.seg d)
  · intro d
    by_cases hd : d = c
    · subst hd
      rw [Function.update_self]
      simp only [keysOf, List.map_append, List.nodup_append]
      exact ⟨nd1, nd2, fun a ha b hb => cross a ha b (by right; exact hb)⟩
    · rw [Function.update_of_ne hd]
      exact h.keys d
  · have sub : ∀ j ∈ keysOf (l1 ++ l2), j ∈ keysOf (chain c) := by
      intro j hj
      rw [hl]
      simp only [keysOf, List.map_append, List.map_cons, List.mem_append, List.mem_cons] at hj ⊢
      rcases hj with hj | hj
      · exact Or.inl hj
      · exact Or.inr (Or.inr hj)
    intro d e hde j hj
    by_cases hd : d = c
    · subst hd
      rw [Function.update_self] at hj
      rw [Function.update_of_ne (fun he => hde he.symm)]
      exact h.apart d e hde j (sub j hj)
    · rw [Function.update_of_ne hd] at hj
      by_cases he : e = c
      · subst he
        rw [Function.update_self]
        exact fun hj' => h.apart d e hde j hj (sub j hj')
      · rw [Function.update_of_ne he]
        exact h.apart d e hde j hj
  · intro j hj
    obtain ⟨h1, h2⟩ := hnone j hj
    obtain ⟨d, hd⟩ := (h.only j h1).resolve_right (by simp)
    refine Or.inl ⟨d, ?_⟩
    by_cases he : d = c
    · subst he
      rw [Function.update_self]
      rw [hl] at hd
      simp only [keysOf, List.map_append, List.map_cons, List.mem_append, List.mem_cons] at hd ⊢
      rcases hd with hd | hd | hd
      · exact Or.inl hd
      · exact absurd hd h2
      · exact Or.inr hd
    · rwa [Function.update_of_ne he]
  · intro j hj
    show j < st2.nCells
    rw [g5.nCells, f5.nCells]
    exact h.bound j (hnone j hj).1
  · intro d hd
    have : d ≠ c := fun he => hd (he ▸ hc)
    rw [Function.update_of_ne this]
    exact h.dead d hd

theorem chain_short {st : TreeStore} {alive loose : List Nat} {chain : Nat → List (Nat × Nat)} (h : Heaped st alive chain loose) (c : Nat) : (chain c).length ≤ st.nCells := by
  have h1 : keysOf (chain c) ⊆ List.range st.nCells := fun k hk => List.mem_range.2 (h.bound k (seg_some _ (h.seg c) k hk))
  have := (List.subperm_of_subset (h.keys c) h1).length_le
  simpa [keysOf] using this

theorem removeFrom_ok {st : TreeStore} {alive : List Nat} {chain : Nat → List (Nat × Nat)} (h : Heaped st alive chain []) {c : Nat} (s : Nat) (hc : c ∈ alive) :
    ∀ (rest pre : List (Nat × Nat)) (fuel : Nat), chain c = pre ++ rest → rest.length < fuel →
    ∃ st', TreeStore.removeFrom c s fuel (firstOf rest none) st = ok st' ∧ Heaped st' alive (Function.update chain c (pre ++ rest.eraseP (fun x => x.2 == s))) [] ∧ SameRest st st'
  | [], pre, fuel, hl, hf => by
    obtain ⟨fuel, rfl⟩ : ∃ f, fuel = f + 1 := ⟨fuel - 1, by simp at hf; omega⟩
    refine ⟨st, rfl, ?_, ⟨rfl, rfl, rfl, rfl⟩⟩
    rw [List.eraseP_nil, ← hl, Function.update_eq_self]
    exact h
  | (k, t) :: rest, pre, fuel, hl, hf => by
    obtain ⟨fuel, rfl⟩ : ∃ f, fuel = f + 1 := ⟨fuel - 1, by simp at hf; omega⟩
    have hseg := h.seg c
    rw [hl, seg_append] at hseg
    have hk := hseg.2.1
    simp only at hk
    rw [TreeStore.removeFrom.eq_def]
    simp only [firstOf]
    rw [fetch_some hk]
    simp only [ok_bind]
    by_cases ht : t = s
    · rw [if_pos ht]
      obtain ⟨st', h1, h2, h3⟩ := unlink_ok h hc hl
      refine ⟨st', h1, ?_, h3⟩
      rw [List.eraseP_cons_of_pos (by simpa using ht)]
      exact h2
    · rw [if_neg ht]
      obtain ⟨st', h1, h2, h3⟩ := removeFrom_ok h s hc rest (pre ++ [(k, t)]) fuel (by rw [hl]; simp) (by simp at hf; omega)
      refine ⟨st', h1, ?_, h3⟩
      rw [List.eraseP_cons_of_neg (by simpa using ht)]
      simpa using h2

theorem eraseP_filter (s : Nat) : ∀ (l : List (Nat × Nat)), (l.map (fun x => x.2)).Nodup → l.eraseP (fun x => x.2 == s) = l.filter (fun x => x.2 != s)
  | [], _ => rfl
  | x :: l, h => by
    rw [List.map_cons, List.nodup_cons] at h
    by_cases hx : x.2 = s
    · rw [List.eraseP_cons_of_pos (by simpa using hx), List.filter_cons_of_neg (by simpa using hx)]
      symm
      rw [List.filter_eq_self]
      intro y hy
      have : y.2 ≠ s := fun he => h.1 (by rw [hx, ← he]; exact List.mem_map_of_mem hy)
      simpa using this
    · rw [List.eraseP_cons_of_neg (by simpa using hx), List.filter_cons_of_pos (by simpa using hx), eraseP_filter s l h.2]

theorem removeSepset_ok {st : TreeStore} {alive : List Nat} {chain : Nat → List (Nat × Nat)} (h : Heaped st alive chain []) {c : Nat} (s : Nat) (hc : c ∈ alive)
    (hn : ((chain c).map (fun x => x.2)).Nodup) :
    ∃ st', st.removeSepset c s = ok st' ∧ Heaped st' alive (Function.update chain c ((chain c).filter (fun x => x.2 != s))) [] ∧ SameRest st st' := by
  have := chain_short h c
  obtain ⟨st', h1, h2, h3⟩ := removeFrom_ok h s hc (chain c) [] (st.nCells + 1) rfl (by omega)
  refine ⟨st', ?_, ?_, h3⟩
  · unfold TreeStore.removeSepset
    rw [fetch_some (x := firstOf (chain c) none) (by rw [h.cliques, if_pos hc])]
    exact h1
  · rw [eraseP_filter s _ hn] at h2
    exact h2

theorem newCell_ok {st : TreeStore} {alive loose : List Nat} {chain : Nat → List (Nat × Nat)} (h : Heaped st alive chain loose) :
    Heaped st.newCell.2 alive chain (st.nCells :: loose) ∧ st.newCell.2.seps = st.seps ∧ st.newCell.2.nSeps = st.nSeps ∧ st.newCell.2.nCliques = st.nCliques ∧
      st.newCell.2.nCells = st.nCells + 1 ∧ st.nCells ∉ loose := by
  have hnew : st.cells st.nCells = none := by
    by_contra hne
    exact absurd (h.bound _ hne) (by omega)
  have hkey : ∀ c, st.nCells ∉ keysOf (chain c) := fun c hk => seg_some _ (h.seg c) _ hk hnew
  have hloose : st.nCells ∉ loose := fun hk => (h.loose _ hk).1 hnew
  have hupd : ∀ j, j ≠ st.nCells → st.newCell.2.cells j = st.cells j := fun j hj => Function.update_of_ne hj _ _
  refine ⟨⟨h.cliques, ?_, h.keys, h.apart, ?_, ?_, ?_, h.dead⟩, rfl, rfl, rfl, rfl, hloose⟩
  · intro c
    exact seg_congr _ (fun j hj => hupd j (by rintro rfl; exact hkey c hj)) (h.seg c)
  · intro j hj
    by_cases he : j = st.nCells
    · exact Or.inr (by simp [he])
    · rw [hupd j he] at hj
      rcases h.only j hj with h1 | h1
      · exact Or.inl h1
      · exact Or.inr (by simp [h1])
  · intro j hj
    rcases List.mem_cons.1 hj with rfl | hj
    · exact ⟨by simp [TreeStore.newCell], hkey⟩
    · have : j ≠ st.nCells := by rintro rfl; exact hloose hj
      rw [hupd j this]
      exact h.loose j hj
  · intro j hj
    show j < st.nCells + 1
    by_cases he : j = st.nCells
    · omega
    · rw [hupd j he] at hj
      have := h.bound j hj
      omega

theorem pushCell_ok {st : TreeStore} {alive loose loose' : List Nat} {chain : Nat → List (Nat × Nat)} (h : Heaped st alive chain loose) {c new : Nat} (s : Nat) (hc : c ∈ alive)
    (hl : ∀ k, k ∈ loose ↔ k = new ∨ k ∈ loose') (hn : new ∉ loose') :
    ∃ st', st.pushCell s c new = ok st' ∧ Heaped st' alive (Function.update chain c ((new, s) :: chain c)) loose' ∧ SameRest st st' := by
  obtain ⟨hnew, hkey⟩ := h.loose new ((hl new).2 (Or.inl rfl))
  obtain ⟨x0, hx0⟩ := Option.ne_none_iff_exists'.1 hnew
  -- the former first cell
  have step : ∃ st1 : TreeStore, ({ st with cells := Function.update st.cells new (some { data := s, fwd := firstOf (chain c) none, bwd := none }) } : TreeStore).setBack
        (firstOf (chain c) none) new = ok st1 ∧ Seg st1.cells none none ((new, s) :: chain c) ∧ (∀ j, j ≠ new → j ∉ keysOf (chain c) → st1.cells j = st.cells j) ∧
      (∀ j, st1.cells j = none ↔ st.cells j = none) ∧ st1.cliques = st.cliques ∧ SameRest st st1 := by
    have hseg := h.seg c
    have hnd := h.keys c
    have hkc := hkey c
    cases hch : chain c with
    | nil =>
      refine ⟨{ st with cells := Function.update st.cells new (some { data := s, fwd := none, bwd := none }) }, rfl, ⟨by simp [firstOf], trivial⟩, ?_, ?_, rfl, ⟨rfl, rfl, rfl, rfl⟩⟩
      · intro j hj _
        exact Function.update_of_ne hj _ _
      · intro j
        by_cases hj : j = new
        · subst hj
          simp [hx0]
        · simp only [Function.update_of_ne hj]
    | cons x rest =>
      obtain ⟨k, t⟩ := x
      rw [hch] at hseg hnd hkc
      simp only [keysOf, List.map_cons, List.mem_cons, not_or] at hkc
      obtain ⟨hk, hr⟩ := hseg
      simp only at hk hr
      have hkr : k ∉ keysOf rest := by
        simp only [keysOf, List.map_cons, List.nodup_cons] at hnd
        exact hnd.1
      refine ⟨{ st with cells := Function.update (Function.update st.cells new (some { data := s, fwd := some k, bwd := none })) k (some { data := t, fwd := firstOf rest none, bwd := some new }) },
        ?_, ⟨?_, ?_, ?_⟩, ?_, ?_, rfl, ⟨rfl, rfl, rfl, rfl⟩⟩
      · unfold TreeStore.setBack
        simp only [firstOf]
        rw [fetch_some (x := { data := t, fwd := firstOf rest none, bwd := none }) (by
          show Function.update st.cells new _ k = _
          rw [Function.update_of_ne (fun he => hkc.1 he.symm), hk])]
        rfl
      · show Function.update (Function.update st.cells new _) k _ new = _
        rw [Function.update_of_ne hkc.1, Function.update_self]
        rfl
      · simp
      · refine seg_congr _ ?_ hr
        intro j hj
        show Function.update (Function.update st.cells new _) k _ j = _
        rw [Function.update_of_ne (by rintro rfl; exact hkr hj), Function.update_of_ne (by rintro rfl; exact hkc.2 hj)]
      · intro j hj hj'
        simp only [keysOf, List.map_cons, List.mem_cons, not_or] at hj'
        show Function.update (Function.update st.cells new _) k _ j = _
        rw [Function.update_of_ne hj'.1, Function.update_of_ne hj]
      · intro j
        show Function.update (Function.update st.cells new _) k _ j = none ↔ _
        by_cases hj : j = k
        · subst hj
          simp [hk]
        · rw [Function.update_of_ne hj]
          by_cases hj : j = new
          · subst hj
            simp [hx0]
          · rw [Function.update_of_ne hj]
  obtain ⟨st1, e1, f1, f2, f3, f4, f5⟩ := step
  have same : ∀ d, d ≠ c → ∀ j ∈ keysOf (chain d), st1.cells j = st.cells j := by
    intro d hd j hj
    exact f2 j (by rintro rfl; exact hkey d hj) (h.apart d c hd j hj)
  refine ⟨{ st1 with cliques := Function.update st1.cliques c (some (some new)) }, ?_, ⟨?_, ?_, ?_, ?_, ?_, ?_, ?_, ?_⟩, ⟨f5.seps, f5.nSeps, f5.nCliques, f5.nCells⟩⟩
  · unfold TreeStore.pushCell
    rw [fetch_some (x := firstOf (chain c) none) (by rw [h.cliques, if_pos hc])]
    simp only [ok_bind]
    rw [fetch_some hx0]
    simp only [ok_bind]
    rw [e1]
    rfl
  · intro d
    show Function.update st1.cliques c _ d = _
    by_cases hd : d = c
    · subst hd
      rw [Function.update_self, Function.update_self, if_pos hc]
      rfl
    · rw [Function.update_of_ne hd, Function.update_of_ne hd, f4, h.cliques]
  · intro d
    by_cases hd : d = c
    · subst hd
      rw [Function.update_self]
      exact f1
    · rw [Function.update_of_ne hd]
      exact seg_congr _ (same d hd) (h.seg d)
  · intro d
    by_cases hd : d = c
    · subst hd
      rw [Function.update_self]
      simp only [keysOf, List.map_cons, List.nodup_cons]
      exact ⟨hkey d, h.keys d⟩
    · rw [Function.update_of_ne hd]
      exact h.keys d
  · intro d e hde j hj
    by_cases hd : d = c
    · subst hd
      rw [Function.update_self] at hj
      rw [Function.update_of_ne (fun he => hde he.symm)]
      simp only [keysOf, List.map_cons, List.mem_cons] at hj
      rcases hj with rfl | hj
      · exact hkey e
      · exact h.apart d e hde j hj
    · rw [Function.update_of_ne hd] at hj
      by_cases he : e = c
      · subst he
        rw [Function.update_self]
        simp only [keysOf, List.map_cons, List.mem_cons, not_or]
        exact ⟨by rintro rfl; exact hkey d hj, h.apart d e hde j hj⟩
      · rw [Function.update_of_ne he]
        exact h.apart d e hde j hj
  · intro j hj
    have hj' : st.cells j ≠ none := fun hn => hj ((f3 j).2 hn)
    rcases h.only j hj' with ⟨d, hd⟩ | hd
    · refine Or.inl ⟨d, ?_⟩
      by_cases he : d = c
      · subst he
        rw [Function.update_self]
        simp only [keysOf, List.map_cons, List.mem_cons]
        exact Or.inr hd
      · rwa [Function.update_of_ne he]
    · rcases (hl j).1 hd with rfl | hd
      · refine Or.inl ⟨c, ?_⟩
        rw [Function.update_self]
        simp [keysOf]
      · exact Or.inr hd
  · intro j hj
    obtain ⟨h1, h2⟩ := h.loose j ((hl j).2 (Or.inr hj))
    refine ⟨fun hn => h1 ((f3 j).1 hn), ?_⟩
    intro d
    by_cases hd : d = c
    · subst hd
      rw [Function.update_self]
      simp only [keysOf, List.map_cons, List.mem_cons, not_or]
      exact ⟨by rintro rfl; exact hn hj, h2 d⟩
    · rw [Function.update_of_ne hd]
      exact h2 d
  · intro j hj
    show j < st1.nCells
    rw [f5.nCells]
    exact h.bound j (fun hn => hj ((f3 j).2 hn))
  · intro d hd
    have : d ≠ c := fun he => hd (he ▸ hc)
    rw [Function.update_of_ne this]
    exact h.dead d hd

end Nip
