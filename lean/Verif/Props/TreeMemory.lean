import Verif.TreeMemorySteps

/-!
# C87: lists of separators and the freeing of cliques
-/

namespace Nip.Props

open Res Spec

/-- **C87**: For every history of creating cliques, creating separators between different cliques that are there, confirming each separator at most once
(while both cliques are there), and freeing cliques or separators that are not confirmed: nothing that has been freed is used or freed again (the outcome
is not undefined), the list of every clique that is there holds its confirmed separators, most recent first, and nothing else; exactly the cliques and
separators that have not been freed are in the store; and there are two cells for each confirmed separator, no more. -/
theorem C87_history (hist : List GroveStep) (ha : Grove.none.allows hist) :
    ∃ st, TreeStore.empty.run hist = ok st ∧ (∀ c ∈ (Grove.none.afterAll hist).alive, st.walk c = ok ((Grove.none.afterAll hist).bordersOf c)) ∧
      (∀ c, st.cliques c ≠ none ↔ c ∈ (Grove.none.afterAll hist).alive) ∧
      (∀ s a b, st.seps s = some (a, b) ↔ { name := s, one := a, two := b } ∈ (Grove.none.afterAll hist).pending ++ (Grove.none.afterAll hist).confirmed) ∧
      st.liveCells.length = 2 * (Grove.none.afterAll hist).confirmed.length ∧ ∀ k, st.cells k ≠ none → k ∈ st.liveCells := by
  obtain ⟨st, chain, h1, h2⟩ := run_holds hist holds_none ha
  refine ⟨st, h1, fun c hc => walk_ok h2 hc, ?_, ?_, liveCells_length h2, ?_⟩
  · intro c
    rw [h2.heap.cliques]
    split <;> simp_all
  · intro s a b
    constructor
    · intro hs
      obtain ⟨x, hx, rfl⟩ := h2.noMore s (by rw [hs]; simp)
      have := h2.there x hx
      rw [hs] at this
      simp only [Option.some.injEq, Prod.mk.injEq] at this
      obtain ⟨rfl, rfl⟩ := this
      exact hx
    · exact fun hx => h2.there _ hx
  · intro k hk
    exact List.mem_filter.2 ⟨List.mem_range.2 (h2.heap.bound k hk), Option.isSome_iff_ne_none.2 hk⟩

/-- **C87**, the loop of `free_model`: after every such history all cliques that are there can be freed, in any order; then no clique, no list cell and no
confirmed separator is left, only the separators that were never confirmed (nor freed). -/
theorem C87_freed (hist : List GroveStep) (ha : Grove.none.allows hist) (cs : List Nat) (hc : cs.Nodup) (hall : ∀ c, c ∈ cs ↔ c ∈ (Grove.none.afterAll hist).alive) :
    ∃ st st', TreeStore.empty.run hist = ok st ∧ st.freeCliques cs = ok st' ∧ (∀ c, st'.cliques c = none) ∧ (∀ k, st'.cells k = none) ∧
      ∀ s, st'.seps s ≠ none ↔ ∃ x ∈ (Grove.none.afterAll hist).pending, x.name = s := by
  obtain ⟨st, chain, h1, h2⟩ := run_holds hist holds_none ha
  obtain ⟨st', chain', h3, h4⟩ := freeCliques_ok cs h2 hc (fun c hm => (hall c).1 hm)
  obtain ⟨hp, hal⟩ := afterAll_free cs (Grove.none.afterAll hist)
  have hnone : ∀ c, c ∉ ((Grove.none.afterAll hist).afterAll (cs.map .freeClique)).alive := fun c hm => (hal c hm).2 ((hall c).2 (hal c hm).1)
  have hconf : ((Grove.none.afterAll hist).afterAll (cs.map .freeClique)).confirmed = [] := by
    rw [List.eq_nil_iff_forall_not_mem]
    exact fun x hx => hnone _ (h4.ends x hx).1
  refine ⟨st, st', h1, h3, ?_, ?_, ?_⟩
  · intro c
    rw [h4.heap.cliques, if_neg (hnone c)]
  · intro k
    by_contra hk
    rcases h4.heap.only k hk with ⟨c, hc⟩ | hl
    · rw [h4.heap.dead c (hnone c)] at hc
      simp [keysOf] at hc
    · cases hl
  · intro s
    rw [← hp]
    constructor
    · intro hs
      obtain ⟨x, hx, he⟩ := h4.noMore s hs
      rw [hconf, List.append_nil] at hx
      exact ⟨x, hx, he⟩
    · rintro ⟨x, hx, rfl⟩
      rw [h4.there x (List.mem_append_left _ hx)]
      simp

/-- **C87**, the conditions are needed: a separator between a clique and itself, a separator confirmed twice, confirmed after one of its cliques has been
freed, freed though confirmed, and a clique freed twice. -/
theorem C87_needed :
    TreeStore.empty.run [.newClique, .newBorder 0 0, .confirm 0, .freeClique 0] = ub ∧
      TreeStore.empty.run [.newClique, .newClique, .newBorder 0 1, .confirm 0, .confirm 0, .freeClique 0] = ub ∧
      TreeStore.empty.run [.newClique, .newClique, .newBorder 0 1, .freeClique 1, .confirm 0] = ub ∧
      TreeStore.empty.run [.newClique, .newClique, .newBorder 0 1, .confirm 0, .freeBorder 0, .freeClique 1] = ub ∧
      TreeStore.empty.run [.newClique, .freeClique 0, .freeClique 0] = ub := by
  refine ⟨?_, ?_, ?_, ?_, ?_⟩ <;> rfl

/-- four cliques, four separators; one separator is freed, then the clique 1 -/
def groveHistory : List GroveStep :=
  [.newClique, .newClique, .newClique, .newBorder 0 1, .newBorder 1 2, .newBorder 0 2, .confirm 1, .confirm 0, .freeBorder 2, .newClique, .newBorder 3 0, .confirm 3,
    .freeClique 1, .newBorder 2 3]

theorem groveHistory_allowed : Grove.none.allows groveHistory := by
  simp [groveHistory, Grove.allows, GroveStep.allowed, GroveStep.after, Grove.none]

example : Grove.none.afterAll groveHistory =
    { cliques := 4, borders := 5, alive := [3, 2, 0], pending := [{ name := 4, one := 2, two := 3 }], confirmed := [{ name := 3, one := 3, two := 0 }] } := by decide

example : ∃ st, TreeStore.empty.run groveHistory = ok st ∧ st.walk 0 = ok [3] ∧ st.walk 2 = ok [] ∧ st.liveCells.length = 2 := by
  obtain ⟨st, h1, h2, _, _, h3, _⟩ := C87_history groveHistory groveHistory_allowed
  exact ⟨st, h1, h2 0 (by decide), h2 2 (by decide), h3⟩

example : ∃ st, TreeStore.empty.run groveHistory = ok st ∧ ∃ st', st.freeCliques [0, 2, 3] = ok st' ∧ ∀ k, st'.cells k = none := by
  obtain ⟨st, st', h1, h2, _, h3, _⟩ := C87_freed groveHistory groveHistory_allowed [0, 2, 3] (by decide) (by
    have : (Grove.none.afterAll groveHistory).alive = [3, 2, 0] := by decide
    rw [this]
    intro c
    simp
    omega)
  exact ⟨st, h1, st', h2, h3⟩

/-- before the clique 1 is freed it has two separators, most recent first -/
example : ∃ st, TreeStore.empty.run (groveHistory.take 12) = ok st ∧ st.walk 1 = ok [0, 1] ∧ st.walk 0 = ok [3, 0] := by
  obtain ⟨st, h1, h2, _⟩ := C87_history (groveHistory.take 12) (by simp [groveHistory, Grove.allows, GroveStep.allowed, GroveStep.after, Grove.none])
  exact ⟨st, h1, h2 1 (by decide), h2 0 (by decide)⟩

end Nip.Props
