import Verif.SepsetMemoryLemmas
import Verif.Props.Tree
import Verif.Props.TreeMemory

/-!
# C88: candidate separators are kept, freed or lost
-/

namespace Nip.Props

open Res Spec

variable {K : Type} [Field K] [LinearOrder K]

/-- the number of variables that two cliques share -/
def inCommon (cliques : List (Clique K)) (i j : Nat) : Nat :=
  match cliques[i]?, cliques[j]? with
  | some a, some b => (a.vars.filter (fun v => decide (v ∈ b.vars))).length
  | _, _ => 0

/-- the cliques are made, then the calls follow -/
def withCliques (n : Nat) (calls : List GroveStep) : List GroveStep := List.replicate n .newClique ++ calls

/-- **C88**, the full statement for some cliques: the separators are made without an access to freed memory, and after all cliques have been freed (as
`free_model` does) no clique, no list cell and no separator is left. -/
def C88_full (ptr : Nat) (card : Nat → Nat) (cliques : List (Clique K)) : Prop :=
  ∃ e t calls st st', JTree.createSepsetsCalls ptr card { cliques := cliques, sepsets := [] } = ok (e, t, calls) ∧
    TreeStore.empty.run (withCliques cliques.length calls) = ok st ∧ st.freeCliques (List.range cliques.length) = ok st' ∧
    (∀ c, st'.cliques c = none) ∧ (∀ k, st'.cells k = none) ∧ ∀ s, st'.seps s = none

/-- everything known about one run of `nip_create_sepsets` -/
theorem create_and_free (ptr : Nat) (card : Nat → Nat) (cliques : List (Clique K)) (hn : 2 ≤ cliques.length) (hnew : ∀ c ∈ cliques, c.sepsets = []) :
    ∃ t h L R calls st st', JTree.createSepsets ptr card { cliques := cliques, sepsets := [] } = ok (0, t) ∧
      JTree.createSepsetsCalls ptr card { cliques := cliques, sepsets := [] } = ok (0, t, calls) ∧
      JTree.SInv card (fun i => (cliques[i]?.map (fun c => c.vars)).getD []) { cliques := cliques, sepsets := [] } t h L ∧ L.length + 1 = cliques.length ∧
      JTree.Lost (fun i => (cliques[i]?.map (fun c => c.vars)).getD []) cliques.length h L R ∧
      TreeStore.empty.run (withCliques cliques.length calls) = ok st ∧ (∀ c, c < cliques.length → st.walk c = ok (((L.map (borderOf cliques.length)).filter (fun x => x.at c)).map (fun x => x.name))) ∧
      (∀ p ∈ L, st.seps ((candidatePairs cliques.length).idxOf p) = some p) ∧
      st.freeCliques (List.range cliques.length) = ok st' ∧ (∀ c, st'.cliques c = none) ∧ (∀ k, st'.cells k = none) ∧
      (∀ s p, st'.seps s = some p ↔ p ∈ R ∧ s = (candidatePairs cliques.length).idxOf p) := by
  obtain ⟨t, h, L, R, calls, gone, r1, r2, r3, r4, r5, r6, r7, r8⟩ := JTree.createSepsetsCalls_ok ptr card { cliques := cliques, sepsets := [] }
    (fun i => (cliques[i]?.map (fun c => c.vars)).getD []) (by intro i hi; simp [List.getElem?_eq_getElem (show i < cliques.length from hi)]) hn rfl
    (by
      intro c
      unfold JTree.adj
      simp only
      cases hc : cliques[c]? with
      | none => rfl
      | some x => exact hnew x (List.mem_of_getElem? hc))
  obtain ⟨st, chain, s1, s2⟩ := run_holds _ holds_none r6
  rw [r7] at s2
  have hall : ∀ c, c ∈ List.range cliques.length ↔ c ∈ (groveOf cliques.length gone L).alive := by intro c; simp [groveOf]
  obtain ⟨st', chain', u1, u2⟩ := freeCliques_ok (List.range cliques.length) s2 List.nodup_range (fun c hc => (hall c).1 hc)
  obtain ⟨v1, v2⟩ := afterAll_free (List.range cliques.length) (groveOf cliques.length gone L)
  have hnone : ∀ c, c ∉ ((groveOf cliques.length gone L).afterAll ((List.range cliques.length).map .freeClique)).alive := fun c hm => (v2 c hm).2 ((hall c).2 (v2 c hm).1)
  have hconf : ((groveOf cliques.length gone L).afterAll ((List.range cliques.length).map .freeClique)).confirmed = [] := by
    rw [List.eq_nil_iff_forall_not_mem]
    exact fun x hx => hnone _ (u2.ends x hx).1
  have hpend : ∀ p, p ∈ candidatePairs cliques.length ∧ p ∉ gone ↔ p ∈ R := by
    intro p
    constructor
    · rintro ⟨h1, h2⟩
      rw [r8, not_or] at h2
      rcases r5.pairs p h1 with h3 | h3 | h3
      · exact absurd h3 h2.1
      · exact h3
      · exact absurd h3 h2.2
    · intro hp
      obtain ⟨h1, h2⟩ := r5.rejected p hp
      refine ⟨h1, ?_⟩
      rw [r8, not_or]
      exact ⟨h2, fun h3 => (r5.fresh.2 p h3).2.2 hp⟩
  refine ⟨t, h, L, R, calls, st, st', r1, r2, r3, r4, r5, s1, ?_, ?_, u1, ?_, ?_, ?_⟩
  · intro c hc
    exact walk_ok s2 (by simpa [groveOf] using hc)
  · intro p hp
    have := s2.there (borderOf cliques.length p) (List.mem_append_right _ (List.mem_map_of_mem hp))
    exact this
  · intro c
    rw [u2.heap.cliques, if_neg (hnone c)]
  · intro k
    by_contra hk
    rcases u2.heap.only k hk with ⟨c, hc⟩ | hl
    · rw [u2.heap.dead c (hnone c)] at hc
      simp [keysOf] at hc
    · cases hl
  · intro s p
    have hin : ∀ q, q ∈ R → borderOf cliques.length q ∈ ((groveOf cliques.length gone L).afterAll ((List.range cliques.length).map .freeClique)).pending := by
      intro q hq
      rw [v1]
      obtain ⟨h1, h2⟩ := (hpend q).2 hq
      exact List.mem_map_of_mem (List.mem_filter.2 ⟨List.mem_reverse.2 h1, by simpa using h2⟩)
    constructor
    · intro hs
      obtain ⟨x, hx, hxs⟩ := u2.noMore s (by rw [hs]; simp)
      have hsx := u2.there x hx
      rw [hconf, List.append_nil, v1] at hx
      obtain ⟨q, hq, rfl⟩ := List.mem_map.1 hx
      obtain ⟨h1, h2⟩ := List.mem_filter.1 hq
      rw [hxs, hs] at hsx
      have hpq : p = q := Option.some.inj hsx
      subst hpq
      exact ⟨(hpend p).1 ⟨List.mem_reverse.1 h1, by simpa using h2⟩, hxs.symm⟩
    · rintro ⟨hp, rfl⟩
      exact u2.there (borderOf cliques.length p) (List.mem_append_left _ (hin p hp))

theorem inCommon_wt (cliques : List (Clique K)) {i j : Nat} (hi : i < cliques.length) (hj : j < cliques.length) :
    JTree.wt (fun i => (cliques[i]?.map (fun c => c.vars)).getD []) (i, j) = inCommon cliques i j := by
  unfold JTree.wt inCommon
  simp [List.getElem?_eq_getElem hi, List.getElem?_eq_getElem hj]

/-- **C88**, as far as it holds, for all cliques (two or more): the tree is the one of C28; making it accesses no freed memory; the lists of the cliques
hold the separators of the tree; all cliques can be freed afterwards, which leaves no clique, no list cell, and of the separators only some that are not in
the tree.  A separator that is left joins two cliques that share at least as many variables as the smallest separator of the tree has; and every pair of
cliques that is not joined by the tree and shares *more* variables than the smallest separator of the tree has such a separator: it is lost.  Missing: that
nothing is lost, see `C88_refuted`. -/
theorem C88_lost_partial (ptr : Nat) (card : Nat → Nat) (cliques : List (Clique K)) (hn : 2 ≤ cliques.length) (hnew : ∀ c ∈ cliques, c.sepsets = []) :
    ∃ t calls st st', JTree.createSepsets ptr card { cliques := cliques, sepsets := [] } = ok (0, t) ∧
      JTree.createSepsetsCalls ptr card { cliques := cliques, sepsets := [] } = ok (0, t, calls) ∧
      TreeStore.empty.run (withCliques cliques.length calls) = ok st ∧
      (∀ c, c < cliques.length → ∃ l, st.walk c = ok l ∧
        l.map st.seps = (t.sepsets.reverse.filter (fun s => s.first == c || s.second == c)).map (fun s => some (s.first, s.second))) ∧
      st.freeCliques (List.range cliques.length) = ok st' ∧ (∀ c, st'.cliques c = none) ∧ (∀ k, st'.cells k = none) ∧
      (∀ x i j, st'.seps x = some (i, j) → i < j ∧ j < cliques.length ∧ (i, j) ∉ t.sepsets.map (fun s => (s.first, s.second)) ∧
        ∃ s ∈ t.sepsets, inCommon cliques s.first s.second ≤ inCommon cliques i j) ∧
      (∀ i j, i < j → j < cliques.length → (i, j) ∉ t.sepsets.map (fun s => (s.first, s.second)) →
        (∃ s ∈ t.sepsets, inCommon cliques s.first s.second < inCommon cliques i j) → ∃ x, st'.seps x = some (i, j)) := by
  obtain ⟨t, h, L, R, calls, st, st', r1, r2, r3, r4, r5, r6, r7, r8, r9, r10, r11, r12⟩ := create_and_free ptr card cliques hn hnew
  have hends : t.sepsets.map (fun s => (s.first, s.second)) = L.reverse := r3.kinv.ends
  have hrange : ∀ e ∈ L, e.1 < cliques.length ∧ e.2 < cliques.length := by
    intro e he
    have := r3.kinv.range e he
    rw [r3.len] at this
    exact this
  refine ⟨t, calls, st, st', r1, r2, r6, ?_, r9, r10, r11, ?_, ?_⟩
  · intro c hc
    refine ⟨_, r7 c hc, ?_⟩
    have h1 : (t.sepsets.reverse.filter (fun s => s.first == c || s.second == c)).map (fun s => some (s.first, s.second)) =
        ((t.sepsets.map (fun s => (s.first, s.second))).reverse.filter (fun e => e.1 == c || e.2 == c)).map some := by
      rw [← List.map_reverse, List.filter_map, List.map_map]
      rfl
    rw [h1, hends, List.reverse_reverse, List.filter_map, List.map_map, List.map_map]
    have h2 : (fun x : Border => x.at c) ∘ borderOf cliques.length = fun e : Nat × Nat => e.1 == c || e.2 == c := by
      funext e
      rfl
    rw [h2]
    refine List.map_congr_left ?_
    intro p hp
    exact r8 p (List.mem_filter.1 hp).1
  · intro x i j hx
    obtain ⟨hp, _⟩ := (r12 x (i, j)).1 hx
    obtain ⟨h1, h2⟩ := r5.rejected _ hp
    obtain ⟨h3, h4⟩ := mem_candidatePairs.1 h1
    refine ⟨h3, h4, ?_, ?_⟩
    · rw [hends, List.mem_reverse]
      exact h2
    · cases hL : L with
      | nil => rw [hL] at r4; simp at r4; omega
      | cons e L' =>
        have := (r5.ended r4 e L' hL _ hp).2
        have he : e ∈ L := by rw [hL]; simp
        have hem : e ∈ t.sepsets.map (fun s => (s.first, s.second)) := by rw [hends]; simpa using he
        obtain ⟨s, hs, hse⟩ := List.mem_map.1 hem
        refine ⟨s, hs, ?_⟩
        have hr := hrange e he
        rw [← inCommon_wt cliques (show i < cliques.length from lt_trans h3 h4) h4]
        have h5 : s.first = e.1 := congrArg Prod.fst hse
        have h6 : s.second = e.2 := congrArg Prod.snd hse
        rw [h5, h6, ← inCommon_wt cliques hr.1 hr.2]
        exact this
  · intro i j hij hj hnot hbig
    obtain ⟨s, hs, hlt⟩ := hbig
    have hse : (s.first, s.second) ∈ L := by
      have : (s.first, s.second) ∈ t.sepsets.map (fun s => (s.first, s.second)) := List.mem_map_of_mem (f := fun s => (s.first, s.second)) hs
      rw [hends] at this
      simpa using this
    have hr := hrange _ hse
    refine ⟨_, (r12 _ (i, j)).2 ⟨?_, rfl⟩⟩
    rcases r5.pairs (i, j) (mem_candidatePairs.2 ⟨hij, hj⟩) with h1 | h1 | h1
    · rw [hends, List.mem_reverse] at hnot
      exact absurd h1 hnot
    · exact h1
    · exfalso
      obtain ⟨x, hx, hxp⟩ := List.mem_map.1 h1
      have hlow := r3.low _ hse x hx
      obtain ⟨a, b, _, _, hc, hp⟩ := (r3.cand x hx).eq
      have q1 : i = a := by
        have := congrArg Sepset.first hc
        have h' : x.content.first = i := congrArg Prod.fst hxp
        rw [h'] at this
        exact this
      have q2 : j = b := by
        have := congrArg Sepset.second hc
        have h' : x.content.second = j := congrArg Prod.snd hxp
        rw [h'] at this
        exact this
      subst q1; subst q2
      have hw : x.primary = -(JTree.wt (fun i => (cliques[i]?.map (fun c => c.vars)).getD []) (i, j) : Int) := hp
      rw [hw, inCommon_wt cliques (lt_trans hij hj) hj, inCommon_wt cliques hr.1 hr.2] at hlow
      simp only at hlow
      omega

/-- **C88** holds for at most three cliques. -/
theorem C88_three_partial (ptr : Nat) (card : Nat → Nat) (cliques : List (Clique K)) (hn : cliques.length ≤ 3) (hnew : ∀ c ∈ cliques, c.sepsets = []) :
    C88_full ptr card cliques := by
  by_cases h2 : 2 ≤ cliques.length
  · obtain ⟨t, h, L, R, calls, st, st', _, r2, r3, r4, r5, r6, _, _, r9, r10, r11, r12⟩ := create_and_free ptr card cliques h2 hnew
    have hR : R = [] := by
      rw [List.eq_nil_iff_forall_not_mem]
      intro p hp
      obtain ⟨h1, hL⟩ := r5.rejected p hp
      have hlt := (mem_candidatePairs.1 h1).1
      have hless := r3.less
      match L, r4, r5, hL, hless with
      | [], r4, _, _, _ => simp at r4; omega
      | [e], r4, r5, _, _ =>
        have := (r5.ended r4 e [] rfl p hp).1
        simp only [comp] at this
        omega
      | [e, e'], r4, r5, hL, hless =>
        have := (r5.ended r4 e [e'] rfl p hp).1
        have hl := hless e' (by simp)
        have hne : p ≠ e' := fun he => hL (he ▸ by simp)
        obtain ⟨a, b⟩ := e'
        obtain ⟨c, d⟩ := p
        replace this : (if c = b then a else c) = (if d = b then a else d) := this
        simp only at hl hlt
        by_cases q1 : c = b
        · rw [if_pos q1, if_neg (by omega)] at this
          omega
        · rw [if_neg q1] at this
          by_cases q2 : d = b
          · rw [if_pos q2] at this
            exact hne (by rw [this, q2])
          · rw [if_neg q2] at this
            omega
      | e :: e' :: e'' :: L, r4, _, _, _ => simp at r4; omega
    refine ⟨0, t, calls, st, st', r2, r6, r9, r10, r11, ?_⟩
    intro s
    cases hs : st'.seps s with
    | none => rfl
    | some p =>
      have := ((r12 s p).1 hs).1
      rw [hR] at this
      cases this
  · have hbuild : JTree.buildSepsetHeap ptr card ({ cliques := cliques, sepsets := [] } : JTree K) = ok none := by
      unfold JTree.buildSepsetHeap
      have hz : cliques.length * (cliques.length - 1) / 2 = 0 := by
        have : cliques.length - 1 = 0 := by omega
        rw [this]
        simp
      have h : Heap.new (α := Sepset K) ptr ((cliques.length * (cliques.length - 1) / 2 : Nat) : Int) = none := by simp [Heap.new, hz]
      simp only [h]
    obtain ⟨c1, c2⟩ := cliques_made cliques.length
    obtain ⟨st, st', h1, h3, h4, h5, h6⟩ := C87_freed (withCliques cliques.length []) (by unfold withCliques; rw [List.append_nil]; exact c1) (List.range cliques.length) List.nodup_range
      (by
        intro c
        unfold withCliques
        rw [List.append_nil, c2]
        simp)
    refine ⟨ENOMEM, { cliques := cliques, sepsets := [] }, [], st, st', ?_, h1, h3, h4, h5, ?_⟩
    · unfold JTree.createSepsetsCalls
      rw [hbuild]
      rfl
    · intro s
      by_contra hs
      obtain ⟨x, hx, _⟩ := (h6 s).1 hs
      unfold withCliques at hx
      rw [List.append_nil, c2] at hx
      cases hx

/-- four cliques; the first three share two variables -/
def fourCliques : List (Clique ℚ) := [[1, 2, 3], [1, 2, 4], [1, 2, 5], [5, 6]].map (mkClique (fun _ => 2))

/-- the separators that are left when the four cliques have been freed -/
def fourLeft : Res (List (Option (Nat × Nat))) := do
  let (_, _, calls) ← JTree.createSepsetsCalls 8 (fun _ => 2) { cliques := fourCliques, sepsets := [] }
  let st ← TreeStore.empty.run (withCliques 4 calls)
  let st ← st.freeCliques (List.range 4)
  ok ((List.range 6).map st.seps)

theorem fourLeft_eq : fourLeft = ok [none, none, none, some (1, 2), none, none] := by decide +kernel

/-- **C88** is false: of four cliques, of which three share two variables and the fourth shares one with one of them, one candidate is neither confirmed
nor freed, and nobody knows where it is when all cliques have been freed. -/
theorem C88_refuted : ¬ ∀ (cliques : List (Clique ℚ)), (∀ c ∈ cliques, c.sepsets = []) → C88_full 8 (fun _ => 2) cliques := by
  intro hall
  obtain ⟨e, t, calls, st, st', h1, h2, h3, _, _, h6⟩ := hall fourCliques (by decide)
  have h4 := fourLeft_eq
  unfold fourLeft at h4
  have hl : fourCliques.length = 4 := rfl
  rw [hl] at h2 h3
  rw [h1] at h4
  simp only [ok_bind] at h4
  rw [h2] at h4
  simp only [ok_bind] at h4
  rw [h3] at h4
  simp only [ok_bind, Res.ok.injEq] at h4
  have h5 : (List.range 6).map st'.seps = (List.range 6).map (fun _ => none) := List.map_congr_left (fun s _ => h6 s)
  rw [h5] at h4
  exact absurd h4 (by decide)

/-- the network with the edges 1, 2 → 3, 4, 5 and 5 → 6 -/
def lossOps : List GraphOp :=
  [.node 1, .node 2, .node 3, .node 4, .node 5, .node 6, .edge 1 3, .edge 2 3, .edge 1 4, .edge 2 4, .edge 1 5, .edge 2 5, .edge 5 6]

/-- Its cliques are such: a network of six variables is enough. -/
example : (lossOps.foldlM GraphOp.run ([], Graph.new 6)).bind
    (fun r => graphToCliques 8 (clusterPrimaryCost (fun _ _ => false)) (clusterSecondaryCost (fun _ => 2)) (fun _ => false) (fun _ => false) r.2) =
    ok [[5, 6], [1, 2, 4], [1, 2, 5], [1, 2, 3]] := by decide +kernel

/-- the hypotheses of `C88_lost_partial` for the four cliques; the pair (1, 2) is not joined by the tree, and shares more than the smallest separator -/
example : 2 ≤ fourCliques.length ∧ (∀ c ∈ fourCliques, c.sepsets = []) ∧ inCommon fourCliques 1 2 = 2 ∧ inCommon fourCliques 2 3 = 1 := by decide

example : (JTree.createSepsets 8 (fun _ => 2) { cliques := fourCliques, sepsets := [] }).bind (fun r => ok (r.2.sepsets.map (fun s => (s.first, s.second)))) =
    ok [(0, 1), (0, 2), (2, 3)] := by decide +kernel

end Nip.Props
