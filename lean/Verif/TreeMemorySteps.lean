import Verif.TreeMemoryLemmas
import Mathlib.Data.List.Nodup

/-!
# The store follows the specification
-/

namespace Nip

open Res Spec

/-- the store holds what there is -/
structure Holds (st : TreeStore) (g : Grove) (chain : Nat → List (Nat × Nat)) : Prop where
  heap : Heaped st g.alive chain []
  there : ∀ x ∈ g.pending ++ g.confirmed, st.seps x.name = some (x.one, x.two)
  noMore : ∀ s, st.seps s ≠ none → ∃ x ∈ g.pending ++ g.confirmed, x.name = s
  names : ((g.pending ++ g.confirmed).map (fun x => x.name)).Nodup
  content : ∀ c, (chain c).map (fun x => x.2) = g.bordersOf c
  ends : ∀ x ∈ g.confirmed, x.one ∈ g.alive ∧ x.two ∈ g.alive
  different : ∀ x ∈ g.pending ++ g.confirmed, x.one ≠ x.two
  fresh : ∀ x ∈ g.pending ++ g.confirmed, x.name < g.borders
  cliques : ∀ c ∈ g.alive, c < g.cliques
  nCliques : st.nCliques = g.cliques
  nSeps : st.nSeps = g.borders
  once : g.alive.Nodup

theorem Holds.bordersNodup {st : TreeStore} {g : Grove} {chain : Nat → List (Nat × Nat)} (h : Holds st g chain) (c : Nat) : (g.bordersOf c).Nodup := by
  have := h.names
  rw [List.map_append, List.nodup_append] at this
  exact this.2.1.sublist (List.filter_sublist.map _)

theorem holds_none : Holds TreeStore.empty Grove.none (fun _ => []) where
  heap := ⟨fun _ => rfl, fun _ => trivial, fun _ => List.nodup_nil, fun _ _ _ _ h => by simp [keysOf] at h, fun _ h => absurd rfl h, by simp, fun _ h => absurd rfl h, fun _ _ => rfl⟩
  there := by simp [Grove.none]
  noMore := fun _ h => absurd rfl h
  names := List.nodup_nil
  content := fun _ => rfl
  ends := by simp [Grove.none]
  different := by simp [Grove.none]
  fresh := by simp [Grove.none]
  cliques := by simp [Grove.none]
  nCliques := rfl
  nSeps := rfl
  once := List.nodup_nil

theorem newClique_holds {st : TreeStore} {g : Grove} {chain : Nat → List (Nat × Nat)} (h : Holds st g chain) :
    ∃ st', st.step .newClique = ok st' ∧ Holds st' (GroveStep.newClique.after g) chain := by
  refine ⟨{ st with cliques := Function.update st.cliques st.nCliques (some none), nCliques := st.nCliques + 1 }, rfl,
    ⟨⟨?_, h.heap.seg, h.heap.keys, h.heap.apart, h.heap.only, by simp, h.heap.bound, ?_⟩, h.there, h.noMore, h.names, h.content, ?_, h.different, h.fresh, ?_, ?_, h.nSeps, ?_⟩⟩
  · intro c
    show Function.update st.cliques st.nCliques (some none) c = if c ∈ g.cliques :: g.alive then _ else none
    rw [h.nCliques]
    by_cases hc : c = g.cliques
    · subst hc
      have : chain g.cliques = [] := h.heap.dead _ (fun hm => absurd (h.cliques _ hm) (by omega))
      rw [Function.update_self, if_pos (by simp), this]
      rfl
    · rw [Function.update_of_ne hc, h.heap.cliques]
      simp [hc]
  · intro c hc
    exact h.heap.dead c (fun hm => hc (List.mem_cons_of_mem _ hm))
  · intro x hx
    exact ⟨List.mem_cons_of_mem _ (h.ends x hx).1, List.mem_cons_of_mem _ (h.ends x hx).2⟩
  · intro c hc
    show c < g.cliques + 1
    rcases List.mem_cons.1 hc with rfl | hc
    · omega
    · have := h.cliques c hc
      omega
  · show st.nCliques + 1 = g.cliques + 1
    rw [h.nCliques]
  · exact List.nodup_cons.2 ⟨fun hm => absurd (h.cliques _ hm) (by omega), h.once⟩

theorem newBorder_holds {st : TreeStore} {g : Grove} {chain : Nat → List (Nat × Nat)} (h : Holds st g chain) {a b : Nat} (ha : (GroveStep.newBorder a b).allowed g) :
    ∃ st', st.step (.newBorder a b) = ok st' ∧ Holds st' ((GroveStep.newBorder a b).after g) chain := by
  obtain ⟨hab, ha, hb⟩ := ha
  have hne : ∀ x ∈ g.pending ++ g.confirmed, x.name ≠ st.nSeps := by
    intro x hx
    have := h.fresh x hx
    rw [h.nSeps]
    omega
  refine ⟨{ st with seps := Function.update st.seps st.nSeps (some (a, b)), nSeps := st.nSeps + 1 }, ?_,
    ⟨⟨h.heap.cliques, h.heap.seg, h.heap.keys, h.heap.apart, h.heap.only, by simp, h.heap.bound, h.heap.dead⟩, ?_, ?_, ?_, h.content, h.ends, ?_, ?_, h.cliques, h.nCliques, ?_, h.once⟩⟩
  · unfold TreeStore.step TreeStore.newSepset
    simp only
    rw [fetch_some (x := firstOf (chain a) none) (by rw [h.heap.cliques, if_pos ha]), fetch_some (x := firstOf (chain b) none) (by rw [h.heap.cliques, if_pos hb])]
    rfl
  · intro x hx
    show Function.update st.seps st.nSeps (some (a, b)) x.name = _
    rcases List.mem_cons.1 (show x ∈ _ :: (g.pending ++ g.confirmed) from hx) with rfl | hx
    · simp only
      rw [h.nSeps, Function.update_self]
    · rw [Function.update_of_ne (hne x hx), h.there x hx]
  · intro s hs
    by_cases he : s = st.nSeps
    · exact ⟨_, List.mem_cons_self, by rw [he, h.nSeps]⟩
    · have hs' : Function.update st.seps st.nSeps (some (a, b)) s ≠ none := hs
      rw [Function.update_of_ne he] at hs'
      obtain ⟨x, hx, hx'⟩ := h.noMore s hs'
      exact ⟨x, List.mem_cons_of_mem _ hx, hx'⟩
  · show (g.borders :: (g.pending ++ g.confirmed).map (fun x => x.name)).Nodup
    refine List.nodup_cons.2 ⟨?_, h.names⟩
    intro hm
    obtain ⟨x, hx, hx'⟩ := List.mem_map.1 hm
    have := h.fresh x hx
    omega
  · intro x hx
    rcases List.mem_cons.1 (show x ∈ _ :: (g.pending ++ g.confirmed) from hx) with rfl | hx
    · exact hab
    · exact h.different x hx
  · intro x hx
    show x.name < g.borders + 1
    rcases List.mem_cons.1 (show x ∈ _ :: (g.pending ++ g.confirmed) from hx) with rfl | hx
    · simp
    · have := h.fresh x hx
      omega
  · show st.nSeps + 1 = g.borders + 1
    rw [h.nSeps]

theorem filter_one {l : List Border} (hn : (l.map (fun x => x.name)).Nodup) {x : Border} (hx : x ∈ l) : l.filter (fun y => y.name == x.name) = [x] := by
  induction l with
  | nil => cases hx
  | cons y l ih =>
    rw [List.map_cons, List.nodup_cons] at hn
    rcases List.mem_cons.1 hx with rfl | hx
    · rw [List.filter_cons_of_pos (by simp)]
      congr 1
      rw [List.filter_eq_nil_iff]
      intro z hz
      have : z.name ≠ x.name := fun he => hn.1 (he ▸ List.mem_map_of_mem (f := fun x => x.name) hz)
      simpa using this
    · have : y.name ≠ x.name := fun he => hn.1 (he ▸ List.mem_map_of_mem (f := fun x => x.name) hx)
      rw [List.filter_cons_of_neg (by simpa using this), ih hn.2 hx]

theorem freeBorder_holds {st : TreeStore} {g : Grove} {chain : Nat → List (Nat × Nat)} (h : Holds st g chain) {s : Nat} (ha : (GroveStep.freeBorder s).allowed g) :
    ∃ st', st.step (.freeBorder s) = ok st' ∧ Holds st' ((GroveStep.freeBorder s).after g) chain := by
  obtain ⟨x, hx, rfl⟩ := ha
  have hx' : x ∈ g.pending ++ g.confirmed := List.mem_append_left _ hx
  have hnd := h.names
  rw [List.map_append, List.nodup_append] at hnd
  have hsub : ∀ y ∈ g.pending.filter (fun y => y.name != x.name) ++ g.confirmed, y ∈ g.pending ++ g.confirmed ∧ y.name ≠ x.name := by
    intro y hy
    rcases List.mem_append.1 hy with hy | hy
    · obtain ⟨h1, h2⟩ := List.mem_filter.1 hy
      exact ⟨List.mem_append_left _ h1, by simpa using h2⟩
    · refine ⟨List.mem_append_right _ hy, fun he => ?_⟩
      exact hnd.2.2 x.name (List.mem_map_of_mem (f := fun x => x.name) hx) y.name (List.mem_map_of_mem (f := fun x => x.name) hy) he.symm
  refine ⟨{ st with seps := Function.update st.seps x.name none }, ?_,
    ⟨⟨h.heap.cliques, h.heap.seg, h.heap.keys, h.heap.apart, h.heap.only, by simp, h.heap.bound, h.heap.dead⟩, ?_, ?_, ?_, h.content, h.ends, ?_, ?_, h.cliques, h.nCliques, h.nSeps, h.once⟩⟩
  · show st.freeSepset x.name = _
    unfold TreeStore.freeSepset
    rw [fetch_some (h.there x hx')]
    rfl
  · intro y hy
    obtain ⟨h1, h2⟩ := hsub y hy
    show Function.update st.seps x.name none y.name = _
    rw [Function.update_of_ne h2, h.there y h1]
  · intro s hs
    have hs' : Function.update st.seps x.name none s ≠ none := hs
    have hne : s ≠ x.name := by
      rintro rfl
      simp at hs'
    rw [Function.update_of_ne hne] at hs'
    obtain ⟨y, hy, rfl⟩ := h.noMore s hs'
    refine ⟨y, ?_, rfl⟩
    rcases List.mem_append.1 hy with hy | hy
    · exact List.mem_append_left _ (List.mem_filter.2 ⟨hy, by simpa using hne⟩)
    · exact List.mem_append_right _ hy
  · exact h.names.sublist ((List.filter_sublist.append_right _).map _)
  · exact fun y hy => h.different y (hsub y hy).1
  · exact fun y hy => h.fresh y (hsub y hy).1

theorem confirm_holds {st : TreeStore} {g : Grove} {chain : Nat → List (Nat × Nat)} (h : Holds st g chain) {s : Nat} (ha : (GroveStep.confirm s).allowed g) :
    ∃ st' chain', st.step (.confirm s) = ok st' ∧ Holds st' ((GroveStep.confirm s).after g) chain' := by
  obtain ⟨x, hx, rfl, h1, h2⟩ := ha
  have hx' : x ∈ g.pending ++ g.confirmed := List.mem_append_left _ hx
  have hnd := h.names
  rw [List.map_append, List.nodup_append] at hnd
  have hone : g.pending.filter (fun y => y.name == x.name) = [x] := filter_one hnd.1 hx
  have hne := h.different x hx'
  obtain ⟨a1, a2, a3, a4, a5, a6⟩ := newCell_ok h.heap
  obtain ⟨b1, b2, b3, b4, b5, b6⟩ := newCell_ok a1
  rw [a5] at b1 b5 b6
  obtain ⟨st1, c1, c2, c3⟩ := pushCell_ok (c := x.one) (new := st.nCells) (loose' := [st.nCells + 1]) b1 x.name h1 (by intro k; simp; tauto) (by simp)
  obtain ⟨st2, d1, d2, d3⟩ := pushCell_ok (c := x.two) (new := st.nCells + 1) (loose' := []) c2 x.name h2 (by intro k; simp) (by simp)
  rw [Function.update_of_ne (fun he => hne he.symm)] at d2
  have hsep : st.newCell.2.newCell.2.seps = st.seps := by rw [b2, a2]
  have hsep1 : st1.seps = st.seps := by rw [c3.seps, hsep]
  have hsep2 : st2.seps = st.seps := by rw [d3.seps, hsep1]
  have hmem : ∀ y, y ∈ g.pending.filter (fun y => y.name != x.name) ++ (g.pending.filter (fun y => y.name == x.name) ++ g.confirmed) ↔ y ∈ g.pending ++ g.confirmed := by
    intro y
    simp only [List.mem_append, List.mem_filter]
    by_cases hy : y.name = x.name <;> simp [hy]
  refine ⟨st2, _, ?_, ⟨d2, ?_, ?_, ?_, ?_, ?_, ?_, ?_, h.cliques, ?_, ?_, h.once⟩⟩
  · show st.confirmSepset x.name = ok st2
    unfold TreeStore.confirmSepset
    have e1 : fetch st.newCell.2.newCell.2.seps x.name = ok (x.one, x.two) := fetch_some (by rw [hsep]; exact h.there x hx')
    have e2 : fetch st1.seps x.name = ok (x.one, x.two) := fetch_some (by rw [hsep1]; exact h.there x hx')
    have e3 : st.newCell.1 = st.nCells := rfl
    have e4 : st.newCell.2.newCell.1 = st.nCells + 1 := rfl
    simp only [e3, e4, e1, ok_bind, c1, e2, d1]
  · intro y hy
    rw [hsep2]
    exact h.there y ((hmem y).1 hy)
  · intro s hs
    rw [hsep2] at hs
    obtain ⟨y, hy, hy'⟩ := h.noMore s hs
    exact ⟨y, (hmem y).2 hy, hy'⟩
  · show ((g.pending.filter (fun y => y.name != x.name) ++ (g.pending.filter (fun y => y.name == x.name) ++ g.confirmed)).map (fun y => y.name)).Nodup
    have hperm : (g.pending.filter (fun y => y.name != x.name) ++ (g.pending.filter (fun y => y.name == x.name) ++ g.confirmed)).Perm (g.pending ++ g.confirmed) := by
      rw [← List.append_assoc]
      refine List.Perm.append_right _ ?_
      refine List.perm_append_comm.trans ?_
      exact List.filter_append_perm (fun y : Border => y.name == x.name) g.pending
    exact (hperm.map _).nodup_iff.2 h.names
  · intro c
    unfold Grove.bordersOf GroveStep.after
    simp only [hone]
    rw [List.singleton_append, List.filter_cons]
    by_cases hc2 : c = x.two
    · subst hc2
      rw [Function.update_self, List.map_cons, h.content]
      have : x.at x.two = true := by simp [Border.at]
      rw [if_pos this]
      rfl
    · rw [Function.update_of_ne hc2]
      by_cases hc1 : c = x.one
      · subst hc1
        rw [Function.update_self, List.map_cons, h.content]
        have : x.at x.one = true := by simp [Border.at]
        rw [if_pos this]
        rfl
      · rw [Function.update_of_ne hc1, h.content]
        have : ¬ x.at c = true := by
          simp only [Border.at, Bool.or_eq_true, beq_iff_eq, not_or]
          exact ⟨fun he => hc1 he.symm, fun he => hc2 he.symm⟩
        rw [if_neg this]
        rfl
  · intro y hy
    have hy' : y ∈ g.pending.filter (fun y => y.name == x.name) ++ g.confirmed := hy
    rw [hone] at hy'
    rcases List.mem_cons.1 hy' with rfl | hy'
    · exact ⟨h1, h2⟩
    · exact h.ends y hy'
  · exact fun y hy => h.different y ((hmem y).1 hy)
  · exact fun y hy => h.fresh y ((hmem y).1 hy)
  · rw [d3.nCliques, c3.nCliques, b4, a4, h.nCliques]
    rfl
  · rw [d3.nSeps, c3.nSeps, b3, a3, h.nSeps]
    rfl

/-- what there is without a confirmed separator -/
def Spec.Grove.without (g : Grove) (s : Nat) : Grove := { g with confirmed := g.confirmed.filter (fun x => x.name != s) }

theorem bordersOf_without (g : Grove) (s c : Nat) : (g.without s).bordersOf c = (g.bordersOf c).filter (fun t => t != s) := by
  unfold Grove.bordersOf Grove.without
  simp only [List.filter_map, List.filter_filter]
  congr 1
  refine List.filter_congr ?_
  intro y _
  simp [Bool.and_comm]

/-- one pass of the loop in `nip_free_clique` -/
theorem freeOne_ok {st : TreeStore} {g : Grove} {chain : Nat → List (Nat × Nat)} (h : Holds st g chain) {x : Border} (hx : x ∈ g.confirmed) :
    ∃ st1 st2 st3, fetch st.seps x.name = ok (x.one, x.two) ∧ st.removeSepset x.one x.name = ok st1 ∧ fetch st1.seps x.name = ok (x.one, x.two) ∧
      st1.removeSepset x.two x.name = ok st2 ∧ st2.freeSepset x.name = ok st3 ∧ Holds st3 (g.without x.name) (fun c => (chain c).filter (fun y => y.2 != x.name)) ∧ st3.nCells = st.nCells := by
  have hx' : x ∈ g.pending ++ g.confirmed := List.mem_append_right _ hx
  have hne := h.different x hx'
  obtain ⟨h1, h2⟩ := h.ends x hx
  have hnd := h.names
  rw [List.map_append, List.nodup_append] at hnd
  have hcont : ∀ c, ((chain c).map (fun x => x.2)).Nodup := fun c => by rw [h.content]; exact h.bordersNodup c
  obtain ⟨st1, a1, a2, a3⟩ := removeSepset_ok h.heap x.name h1 (hcont _)
  obtain ⟨st2, b1, b2, b3⟩ := removeSepset_ok a2 x.name h2 (by rw [Function.update_of_ne (fun he => hne he.symm)]; exact hcont _)
  rw [Function.update_of_ne (fun he => hne he.symm)] at b2
  have hchain : Function.update (Function.update chain x.one ((chain x.one).filter (fun y => y.2 != x.name))) x.two ((chain x.two).filter (fun y => y.2 != x.name)) =
      fun c => (chain c).filter (fun y => y.2 != x.name) := by
    funext c
    by_cases hc2 : c = x.two
    · subst hc2
      rw [Function.update_self]
    · rw [Function.update_of_ne hc2]
      by_cases hc1 : c = x.one
      · subst hc1
        rw [Function.update_self]
      · rw [Function.update_of_ne hc1]
        symm
        rw [List.filter_eq_self]
        intro y hy
        have hm : y.2 ∈ g.bordersOf c := by rw [← h.content]; exact List.mem_map_of_mem hy
        obtain ⟨z, hz, hz'⟩ := List.mem_map.1 hm
        obtain ⟨hz1, hz2⟩ := List.mem_filter.1 hz
        have : y.2 ≠ x.name := by
          intro he
          have hzx : z = x := by
            have hf := filter_one hnd.2.1 hx
            have : z ∈ g.confirmed.filter (fun y => y.name == x.name) := List.mem_filter.2 ⟨hz1, by rw [hz', he]; simp⟩
            rw [hf] at this
            exact List.mem_singleton.1 this
          subst hzx
          simp only [Border.at, Bool.or_eq_true, beq_iff_eq] at hz2
          rcases hz2 with hz2 | hz2
          · exact hc1 hz2.symm
          · exact hc2 hz2.symm
        simpa using this
  rw [hchain] at b2
  have hs1 : st1.seps = st.seps := a3.seps
  have hs2 : st2.seps = st.seps := by rw [b3.seps, hs1]
  have hsub : ∀ y ∈ g.pending ++ g.confirmed.filter (fun y => y.name != x.name), y ∈ g.pending ++ g.confirmed ∧ y.name ≠ x.name := by
    intro y hy
    rcases List.mem_append.1 hy with hy | hy
    · refine ⟨List.mem_append_left _ hy, fun he => ?_⟩
      exact hnd.2.2 y.name (List.mem_map_of_mem (f := fun x => x.name) hy) x.name (List.mem_map_of_mem (f := fun x => x.name) hx) he
    · obtain ⟨h1, h2⟩ := List.mem_filter.1 hy
      exact ⟨List.mem_append_right _ h1, by simpa using h2⟩
  refine ⟨st1, st2, { st2 with seps := Function.update st2.seps x.name none }, fetch_some (h.there x hx'), a1, fetch_some (by rw [hs1]; exact h.there x hx'), b1, ?_,
    ⟨⟨b2.cliques, b2.seg, b2.keys, b2.apart, b2.only, by simp, b2.bound, b2.dead⟩, ?_, ?_, ?_, ?_, ?_, ?_, ?_, h.cliques, ?_, ?_, h.once⟩, ?_⟩
  · unfold TreeStore.freeSepset
    rw [fetch_some (by rw [hs2]; exact h.there x hx')]
    rfl
  · intro y hy
    obtain ⟨h1, h2⟩ := hsub y hy
    show Function.update st2.seps x.name none y.name = _
    rw [Function.update_of_ne h2, hs2, h.there y h1]
  · intro s hs
    have hs' : Function.update st2.seps x.name none s ≠ none := hs
    have hne : s ≠ x.name := by
      rintro rfl
      simp at hs'
    rw [Function.update_of_ne hne, hs2] at hs'
    obtain ⟨y, hy, rfl⟩ := h.noMore s hs'
    refine ⟨y, ?_, rfl⟩
    rcases List.mem_append.1 hy with hy | hy
    · exact List.mem_append_left _ hy
    · exact List.mem_append_right _ (List.mem_filter.2 ⟨hy, by simpa using hne⟩)
  · exact h.names.sublist ((List.filter_sublist.append_left _).map _)
  · intro c
    rw [bordersOf_without, ← h.content]
    rw [List.filter_map]
    rfl
  · intro y hy
    exact h.ends y (List.mem_filter.1 hy).1
  · exact fun y hy => h.different y (hsub y hy).1
  · exact fun y hy => h.fresh y (hsub y hy).1
  · show st2.nCliques = g.cliques
    rw [b3.nCliques, a3.nCliques, h.nCliques]
  · show st2.nSeps = g.borders
    rw [b3.nSeps, a3.nSeps, h.nSeps]
  · show st2.nCells = st.nCells
    rw [b3.nCells, a3.nCells]

theorem freeLinks_ok {c : Nat} : ∀ (fuel : Nat) {st : TreeStore} {g : Grove} {chain : Nat → List (Nat × Nat)}, Holds st g chain → c ∈ g.alive → (chain c).length < fuel →
    ∃ st' chain', TreeStore.freeLinks fuel (firstOf (chain c) none) st = ok st' ∧ Holds st' { g with confirmed := g.confirmed.filter (fun x => !x.at c) } chain'
  | 0, _, _, _, _, _, h => by omega
  | fuel + 1, st, g, chain, h, hc, hf => by
    cases hch : chain c with
    | nil =>
      refine ⟨st, chain, rfl, ?_⟩
      have hno : g.confirmed.filter (fun x => !x.at c) = g.confirmed := by
        rw [List.filter_eq_self]
        intro x hx
        have : g.bordersOf c = [] := by rw [← h.content, hch]; rfl
        by_contra hat
        have hm : x.name ∈ g.bordersOf c := List.mem_map_of_mem (List.mem_filter.2 ⟨hx, by simpa using hat⟩)
        rw [this] at hm
        cases hm
      rw [hno]
      exact h
    | cons y rest =>
      obtain ⟨k, s⟩ := y
      have hm : s ∈ g.bordersOf c := by rw [← h.content, hch]; simp
      obtain ⟨x, hx, rfl⟩ := List.mem_map.1 hm
      obtain ⟨hx1, hx2⟩ := List.mem_filter.1 hx
      have hk : st.cells k = some { data := x.name, fwd := firstOf rest none, bwd := none } := by
        have := h.heap.seg c
        rw [hch] at this
        exact this.1
      obtain ⟨st1, st2, st3, e1, e2, e3, e4, e5, e6, _⟩ := freeOne_ok h hx1
      have hnd : ((chain c).map (fun x => x.2)).Nodup := by rw [h.content]; exact h.bordersNodup c
      have hrest : (chain c).filter (fun y => y.2 != x.name) = rest := by
        rw [hch, List.filter_cons_of_neg (by simp), List.filter_eq_self]
        rw [hch, List.map_cons, List.nodup_cons] at hnd
        intro y hy
        have : y.2 ≠ x.name := fun he => hnd.1 (he ▸ List.mem_map_of_mem (f := fun x => x.2) hy)
        simpa using this
      obtain ⟨st', chain', f1, f2⟩ := freeLinks_ok (c := c) fuel e6 hc (by
        show ((chain c).filter (fun y => y.2 != x.name)).length < fuel
        rw [hrest]
        rw [hch, List.length_cons] at hf
        omega)
      refine ⟨st', chain', ?_, ?_⟩
      · rw [TreeStore.freeLinks.eq_def]
        simp only [firstOf]
        rw [fetch_some hk]
        simp only [ok_bind, e1, e2, e3, e4, e5]
        rw [hrest] at f1
        exact f1
      · have he : ((g.without x.name).confirmed.filter (fun y => !y.at c)) = g.confirmed.filter (fun y => !y.at c) := by
          unfold Grove.without
          simp only [List.filter_filter]
          refine List.filter_congr ?_
          intro y hy
          by_cases hn : y.name = x.name
          · have hyx : y = x := by
              have hnn := h.names
              rw [List.map_append, List.nodup_append] at hnn
              have := filter_one hnn.2.1 hx1
              have hym : y ∈ g.confirmed.filter (fun z => z.name == x.name) := List.mem_filter.2 ⟨hy, by simpa using hn⟩
              rw [this] at hym
              exact List.mem_singleton.1 hym
            subst hyx
            simp [hx2]
          · simp [hn]
        have f2' : Holds st' { g with confirmed := (g.without x.name).confirmed.filter (fun y => !y.at c) } chain' := f2
        rw [he] at f2'
        exact f2'

theorem freeClique_holds {st : TreeStore} {g : Grove} {chain : Nat → List (Nat × Nat)} (h : Holds st g chain) {c : Nat} (hc : c ∈ g.alive) :
    ∃ st' chain', st.freeClique c = ok st' ∧ Holds st' ((GroveStep.freeClique c).after g) chain' := by
  obtain ⟨st1, chain', e1, e2⟩ := freeLinks_ok (st.nCells + 1) h hc (by have := chain_short h.heap c; omega)
  have hnil : chain' c = [] := by
    have h1 : (chain' c).map (fun x => x.2) = _ := e2.content c
    have h2 : Grove.bordersOf { g with confirmed := g.confirmed.filter (fun x => !x.at c) } c = [] := by
      unfold Grove.bordersOf
      rw [List.map_eq_nil_iff, List.filter_eq_nil_iff]
      intro x hx
      have := (List.mem_filter.1 hx).2
      simpa using this
    rw [h2] at h1
    simpa using h1
  refine ⟨{ st1 with cliques := Function.update st1.cliques c none }, chain', ?_,
    ⟨⟨?_, e2.heap.seg, e2.heap.keys, e2.heap.apart, e2.heap.only, by simp, e2.heap.bound, ?_⟩, e2.there, e2.noMore, e2.names, e2.content, ?_, e2.different, e2.fresh, ?_, e2.nCliques, e2.nSeps, h.once.filter _⟩⟩
  · unfold TreeStore.freeClique
    rw [fetch_some (x := firstOf (chain c) none) (by rw [h.heap.cliques, if_pos hc])]
    simp only [ok_bind]
    rw [e1]
    simp only [ok_bind]
    rw [fetch_some (x := firstOf (chain' c) none) (by rw [e2.heap.cliques]; exact if_pos hc)]
    rfl
  · intro d
    show Function.update st1.cliques c none d = if d ∈ g.alive.filter (fun d => d != c) then _ else none
    by_cases hd : d = c
    · subst hd
      simp
    · rw [Function.update_of_ne hd, e2.heap.cliques]
      simp [hd]
  · intro d hd
    by_cases he : d = c
    · rw [he, hnil]
    · refine e2.heap.dead d (fun hm => hd ?_)
      exact List.mem_filter.2 ⟨hm, by simpa using he⟩
  · intro x hx
    have hx' : x ∈ g.confirmed.filter (fun x => !x.at c) := hx
    obtain ⟨h1, h2⟩ := List.mem_filter.1 hx'
    obtain ⟨h3, h4⟩ := h.ends x h1
    simp only [Border.at, Bool.not_eq_true', Bool.or_eq_false_iff, beq_eq_false_iff_ne] at h2
    exact ⟨List.mem_filter.2 ⟨h3, by simpa using h2.1⟩, List.mem_filter.2 ⟨h4, by simpa using h2.2⟩⟩
  · intro d hd
    exact h.cliques d (List.mem_filter.1 hd).1

theorem step_holds {st : TreeStore} {g : Grove} {chain : Nat → List (Nat × Nat)} (h : Holds st g chain) {a : GroveStep} (ha : a.allowed g) :
    ∃ st' chain', st.step a = ok st' ∧ Holds st' (a.after g) chain' := by
  cases a with
  | newClique => obtain ⟨st', h1, h2⟩ := newClique_holds h; exact ⟨st', chain, h1, h2⟩
  | newBorder a b => obtain ⟨st', h1, h2⟩ := newBorder_holds h ha; exact ⟨st', chain, h1, h2⟩
  | confirm s => exact confirm_holds h ha
  | freeBorder s => obtain ⟨st', h1, h2⟩ := freeBorder_holds h ha; exact ⟨st', chain, h1, h2⟩
  | freeClique c => exact freeClique_holds h ha

theorem run_holds : ∀ (hist : List GroveStep) {st : TreeStore} {g : Grove} {chain : Nat → List (Nat × Nat)}, Holds st g chain → g.allows hist →
    ∃ st' chain', st.run hist = ok st' ∧ Holds st' (g.afterAll hist) chain'
  | [], st, g, chain, h, _ => ⟨st, chain, rfl, h⟩
  | a :: hist, st, g, chain, h, ha => by
    obtain ⟨st1, chain1, h1, h2⟩ := step_holds h ha.1
    obtain ⟨st2, chain2, h3, h4⟩ := run_holds hist h2 ha.2
    refine ⟨st2, chain2, ?_, h4⟩
    unfold TreeStore.run
    rw [h1]
    exact h3

theorem walkFrom_ok {st : TreeStore} : ∀ (l : List (Nat × Nat)) {p : Option Nat} {fuel : Nat}, Seg st.cells p none l → l.length < fuel →
    st.walkFrom fuel (firstOf l none) = ok (l.map (fun x => x.2))
  | [], _, 0, _, h => by simp at h
  | [], _, fuel + 1, _, _ => rfl
  | x :: l, _, 0, _, h => by simp at h
  | x :: l, p, fuel + 1, hs, h => by
    rw [TreeStore.walkFrom.eq_def]
    simp only [firstOf]
    rw [fetch_some hs.1]
    simp only [ok_bind]
    rw [walkFrom_ok l hs.2 (by simp at h; omega)]
    rfl

theorem walk_ok {st : TreeStore} {g : Grove} {chain : Nat → List (Nat × Nat)} (h : Holds st g chain) {c : Nat} (hc : c ∈ g.alive) : st.walk c = ok (g.bordersOf c) := by
  unfold TreeStore.walk
  rw [fetch_some (x := firstOf (chain c) none) (by rw [h.heap.cliques, if_pos hc])]
  simp only [ok_bind]
  rw [walkFrom_ok _ (h.heap.seg c) (by have := chain_short h.heap c; omega), h.content]

/-- the cells that are there -/
def TreeStore.liveCells (st : TreeStore) : List Nat := (List.range st.nCells).filter (fun k => (st.cells k).isSome)

theorem count_at (l : List Border) : ∀ (alive : List Nat), (alive.map (fun c => (l.filter (fun x => x.at c)).length)).sum = (l.map (fun x => (alive.filter (fun c => x.at c)).length)).sum
  | [] => by simp
  | c :: alive => by
    rw [List.map_cons, List.sum_cons, count_at l alive]
    induction l with
    | nil => rfl
    | cons x l ih =>
      simp only [List.map_cons, List.sum_cons, List.filter_cons]
      simp only [List.filter_cons] at ih
      split
      · simp only [List.length_cons]
        omega
      · omega

theorem two_ends {x : Border} (hne : x.one ≠ x.two) {alive : List Nat} (hn : alive.Nodup) (h1 : x.one ∈ alive) (h2 : x.two ∈ alive) : (alive.filter (fun c => x.at c)).length = 2 := by
  have hp : (alive.filter (fun c => x.at c)).Perm [x.one, x.two] := by
    refine (List.perm_ext_iff_of_nodup (hn.filter _) (by simp [hne])).2 ?_
    intro c
    simp only [List.mem_filter, Border.at, Bool.or_eq_true, beq_iff_eq, List.mem_cons, List.not_mem_nil, or_false]
    constructor
    · rintro ⟨_, rfl | rfl⟩
      · exact Or.inl rfl
      · exact Or.inr rfl
    · rintro (rfl | rfl)
      · exact ⟨h1, Or.inl rfl⟩
      · exact ⟨h2, Or.inr rfl⟩
  rw [hp.length_eq]
  rfl

theorem liveCells_length {st : TreeStore} {g : Grove} {chain : Nat → List (Nat × Nat)} (h : Holds st g chain) : st.liveCells.length = 2 * g.confirmed.length := by
  have hp : st.liveCells.Perm (g.alive.flatMap (fun c => keysOf (chain c))) := by
    refine (List.perm_ext_iff_of_nodup (List.nodup_range.filter _) ?_).2 ?_
    · rw [List.nodup_flatMap]
      refine ⟨fun c _ => h.heap.keys c, h.once.imp ?_⟩
      intro c d hcd k hk hk'
      exact h.heap.apart c d hcd k hk hk'
    · intro k
      simp only [List.mem_filter, List.mem_range, List.mem_flatMap]
      constructor
      · rintro ⟨_, hk⟩
        rcases h.heap.only k (by intro he; rw [he] at hk; cases hk) with ⟨c, hc⟩ | hl
        · refine ⟨c, ?_, hc⟩
          by_contra hna
          rw [h.heap.dead c hna] at hc
          simp [keysOf] at hc
        · cases hl
      · rintro ⟨c, _, hk⟩
        have := seg_some _ (h.heap.seg c) k hk
        exact ⟨h.heap.bound k this, Option.isSome_iff_ne_none.2 this⟩
  have he : ∀ c, (keysOf (chain c)).length = (g.confirmed.filter (fun x => x.at c)).length := by
    intro c
    have := congrArg List.length (h.content c)
    simpa [keysOf, Grove.bordersOf] using this
  rw [hp.length_eq, List.length_flatMap]
  simp only [he]
  rw [count_at]
  have : g.confirmed.map (fun x => (g.alive.filter (fun c => x.at c)).length) = g.confirmed.map (fun _ => 2) := by
    refine List.map_congr_left ?_
    intro x hx
    obtain ⟨h1, h2⟩ := h.ends x hx
    exact two_ends (h.different x (List.mem_append_right _ hx)) h.once h1 h2
  rw [this]
  simp [Nat.mul_comm]

theorem freeCliques_ok : ∀ (cs : List Nat) {st : TreeStore} {g : Grove} {chain : Nat → List (Nat × Nat)}, Holds st g chain → cs.Nodup → (∀ c ∈ cs, c ∈ g.alive) →
    ∃ st' chain', st.freeCliques cs = ok st' ∧ Holds st' (g.afterAll (cs.map .freeClique)) chain'
  | [], st, g, chain, h, _, _ => ⟨st, chain, rfl, h⟩
  | c :: cs, st, g, chain, h, hn, ha => by
    rw [List.nodup_cons] at hn
    obtain ⟨st1, chain1, h1, h2⟩ := freeClique_holds h (ha c (by simp))
    obtain ⟨st2, chain2, h3, h4⟩ := freeCliques_ok cs h2 hn.2 (by
      intro d hd
      refine List.mem_filter.2 ⟨ha d (List.mem_cons_of_mem _ hd), ?_⟩
      have : d ≠ c := fun he => hn.1 (he ▸ hd)
      simpa using this)
    refine ⟨st2, chain2, ?_, h4⟩
    unfold TreeStore.freeCliques
    rw [h1]
    exact h3

theorem afterAll_free (cs : List Nat) : ∀ (g : Grove), (g.afterAll (cs.map .freeClique)).pending = g.pending ∧ (∀ c ∈ (g.afterAll (cs.map .freeClique)).alive, c ∈ g.alive ∧ c ∉ cs) := by
  induction cs with
  | nil => exact fun g => ⟨rfl, fun c hc => ⟨hc, by simp⟩⟩
  | cons d cs ih =>
    intro g
    obtain ⟨h1, h2⟩ := ih ((GroveStep.freeClique d).after g)
    refine ⟨h1, fun c hc => ?_⟩
    obtain ⟨h3, h4⟩ := h2 c hc
    obtain ⟨h5, h6⟩ := List.mem_filter.1 (show c ∈ g.alive.filter (fun e => e != d) from h3)
    refine ⟨h5, ?_⟩
    rw [List.mem_cons, not_or]
    exact ⟨by simpa using h6, h4⟩

end Nip
