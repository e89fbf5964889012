import Verif.SepsetMemory
import Verif.SepsetLemmas
import Verif.TreeMemorySteps

/-!
# Which candidates are confirmed, freed and lost
-/

namespace Nip

open Res Spec

variable {K : Type} [Field K] [LinearOrder K]

theorem mem_candidatePairs {n : Nat} {p : Nat × Nat} : p ∈ candidatePairs n ↔ p.1 < p.2 ∧ p.2 < n := by
  unfold candidatePairs
  simp only [List.mem_flatMap, List.mem_map, List.mem_range]
  constructor
  · rintro ⟨i, hi, j', hj, rfl⟩
    simp only
    omega
  · rintro ⟨h1, h2⟩
    exact ⟨p.1, by omega, p.2 - (p.1 + 1), by omega, by ext <;> simp; omega⟩

theorem candidatePairs_nodup (n : Nat) : (candidatePairs n).Nodup := by
  unfold candidatePairs
  rw [List.nodup_flatMap]
  refine ⟨fun i _ => ?_, List.nodup_range.imp ?_⟩
  · refine List.Nodup.map ?_ List.nodup_range
    intro a b hab
    simp only [Prod.mk.injEq] at hab
    omega
  · intro a b hab p hp hq
    simp only [List.mem_map] at hp hq
    obtain ⟨_, _, rfl⟩ := hp
    obtain ⟨_, _, hq⟩ := hq
    simp only [Prod.mk.injEq] at hq
    exact hab hq.1.symm

theorem rows_length (n : Nat) : ∀ i, ((List.range i).flatMap (fun i => (List.range (n - (i + 1))).map (fun j' => (i, i + 1 + j')))).length = rowsLen n i
  | 0 => rfl
  | i + 1 => by
    rw [List.range_succ, List.flatMap_append, List.length_append, rows_length n i]
    simp [rowsLen]

theorem candidatePairs_length (n : Nat) : (candidatePairs n).length = rowsLen n (n - 1) := rows_length n (n - 1)

/-- the separator made for a pair -/
def borderOf (n : Nat) (p : Nat × Nat) : Border := { name := (candidatePairs n).idxOf p, one := p.1, two := p.2 }

/-- all candidates have been made; those in `gone` have been confirmed or freed, those in `L` confirmed (most recent first) -/
def groveOf (n : Nat) (gone L : List (Nat × Nat)) : Grove :=
  { cliques := n, borders := (candidatePairs n).length, alive := (List.range n).reverse,
    pending := ((candidatePairs n).reverse.filter (fun p => decide (p ∉ gone))).map (borderOf n), confirmed := L.map (borderOf n) }

theorem idxOf_inj {l : List (Nat × Nat)} {p q : Nat × Nat} (hp : p ∈ l) (h : l.idxOf p = l.idxOf q) : p = q := by
  have h1 := List.idxOf_lt_length_of_mem hp
  have h2 : l.idxOf q < l.length := by omega
  have e1 := List.getElem_idxOf h1
  have e2 := List.getElem_idxOf h2
  rw [← e1, ← e2]
  simp only [h]

theorem pending_without {n : Nat} {gone : List (Nat × Nat)} {p : Nat × Nat} :
    (((candidatePairs n).reverse.filter (fun q => decide (q ∉ gone))).map (borderOf n)).filter (fun x => x.name != (candidatePairs n).idxOf p) =
      ((candidatePairs n).reverse.filter (fun q => decide (q ∉ p :: gone))).map (borderOf n) := by
  rw [List.filter_map, List.filter_filter]
  congr 1
  refine List.filter_congr ?_
  intro q hq
  rw [List.mem_reverse] at hq
  by_cases he : q = p
  · subst he
    simp [borderOf]
  · have : (candidatePairs n).idxOf q ≠ (candidatePairs n).idxOf p := fun h => he (idxOf_inj hq h)
    simp [borderOf, this, he]

theorem pending_one {n : Nat} {gone : List (Nat × Nat)} {p : Nat × Nat} (hp : p ∈ candidatePairs n) (hg : p ∉ gone) :
    (((candidatePairs n).reverse.filter (fun q => decide (q ∉ gone))).map (borderOf n)).filter (fun x => x.name == (candidatePairs n).idxOf p) = [borderOf n p] := by
  rw [List.filter_map, List.filter_filter]
  have : (candidatePairs n).reverse.filter (fun q => ((fun x : Border => x.name == (candidatePairs n).idxOf p) ∘ borderOf n) q && decide (q ∉ gone)) = [p] := by
    have hc : (candidatePairs n).reverse.filter (fun q => ((fun x : Border => x.name == (candidatePairs n).idxOf p) ∘ borderOf n) q && decide (q ∉ gone)) =
        (candidatePairs n).reverse.filter (fun q => q == p) := by
      refine List.filter_congr ?_
      intro q hq
      rw [List.mem_reverse] at hq
      by_cases he : q = p
      · subst he
        simp [borderOf, hg]
      · have : (candidatePairs n).idxOf q ≠ (candidatePairs n).idxOf p := fun h => he (idxOf_inj hq h)
        have h1 : ((candidatePairs n).idxOf q == (candidatePairs n).idxOf p) = false := by simpa using this
        have h2 : (q == p) = false := by simpa using he
        simp [borderOf, h1, h2]
    rw [hc, List.filter_beq, List.count_eq_one_of_mem (List.nodup_reverse.2 (candidatePairs_nodup n)) (List.mem_reverse.2 hp)]
    rfl
  rw [this]
  rfl

theorem groveOf_confirm {n : Nat} {gone L : List (Nat × Nat)} {p : Nat × Nat} (hp : p ∈ candidatePairs n) (hg : p ∉ gone) :
    (GroveStep.confirm ((candidatePairs n).idxOf p)).allowed (groveOf n gone L) ∧
      (GroveStep.confirm ((candidatePairs n).idxOf p)).after (groveOf n gone L) = groveOf n (p :: gone) (p :: L) := by
  have hlt := mem_candidatePairs.1 hp
  refine ⟨⟨borderOf n p, List.mem_map_of_mem (List.mem_filter.2 ⟨List.mem_reverse.2 hp, by simpa using hg⟩), rfl, ?_, ?_⟩, ?_⟩
  · simp only [groveOf, borderOf, List.mem_reverse, List.mem_range]
    omega
  · simp only [groveOf, borderOf, List.mem_reverse, List.mem_range]
    omega
  · unfold GroveStep.after groveOf
    simp only [pending_without, pending_one hp hg]
    rfl

theorem groveOf_free {n : Nat} {gone L : List (Nat × Nat)} {p : Nat × Nat} (hp : p ∈ candidatePairs n) (hg : p ∉ gone) :
    (GroveStep.freeBorder ((candidatePairs n).idxOf p)).allowed (groveOf n gone L) ∧
      (GroveStep.freeBorder ((candidatePairs n).idxOf p)).after (groveOf n gone L) = groveOf n (p :: gone) L := by
  refine ⟨⟨borderOf n p, List.mem_map_of_mem (List.mem_filter.2 ⟨List.mem_reverse.2 hp, by simpa using hg⟩), rfl⟩, ?_⟩
  unfold GroveStep.after groveOf
  simp only [pending_without]

theorem allows_append : ∀ (h1 h2 : List GroveStep) (g : Grove), g.allows (h1 ++ h2) ↔ g.allows h1 ∧ (g.afterAll h1).allows h2
  | [], h2, g => by simp [Grove.allows, Grove.afterAll]
  | a :: h1, h2, g => by
    rw [List.cons_append, Grove.allows, Grove.allows, Grove.afterAll, allows_append h1 h2, and_assoc]

theorem afterAll_append : ∀ (h1 h2 : List GroveStep) (g : Grove), g.afterAll (h1 ++ h2) = (g.afterAll h1).afterAll h2
  | [], _, _ => rfl
  | _ :: h1, h2, _ => afterAll_append h1 h2 _

theorem cliques_made : ∀ n, Grove.none.allows (List.replicate n .newClique) ∧
    Grove.none.afterAll (List.replicate n .newClique) = { cliques := n, borders := 0, alive := (List.range n).reverse, pending := [], confirmed := [] }
  | 0 => ⟨trivial, rfl⟩
  | n + 1 => by
    obtain ⟨h1, h2⟩ := cliques_made n
    rw [List.replicate_succ', allows_append, afterAll_append, h2]
    refine ⟨⟨h1, trivial, trivial⟩, ?_⟩
    simp [Grove.afterAll, GroveStep.after, List.range_succ]

theorem borders_made (n : Nat) : ∀ (done rest : List (Nat × Nat)), candidatePairs n = done ++ rest →
    let g : Grove := { cliques := n, borders := done.length, alive := (List.range n).reverse, pending := (done.reverse).map (borderOf n), confirmed := [] }
    g.allows (rest.map (fun p => .newBorder p.1 p.2)) ∧ g.afterAll (rest.map (fun p => .newBorder p.1 p.2)) = groveOf n [] []
  | done, [], h => by
    rw [List.append_nil] at h
    refine ⟨trivial, ?_⟩
    subst h
    simp [Grove.afterAll, groveOf]
  | done, p :: rest, h => by
    have hp : p ∈ candidatePairs n := by rw [h]; simp
    have hlt := mem_candidatePairs.1 hp
    have hi : (candidatePairs n).idxOf p = done.length := by
      have hnd := candidatePairs_nodup n
      rw [h] at hnd ⊢
      have : p ∉ done := fun hm => (List.disjoint_of_nodup_append hnd) hm (by simp)
      rw [List.idxOf_append_of_notMem this]
      simp
    obtain ⟨h1, h2⟩ := borders_made n (done ++ [p]) rest (by rw [h]; simp)
    refine ⟨⟨⟨by omega, by simp; omega, by simp; omega⟩, ?_⟩, ?_⟩
    · have e : (GroveStep.newBorder p.1 p.2).after { cliques := n, borders := done.length, alive := (List.range n).reverse, pending := (done.reverse).map (borderOf n), confirmed := [] } =
          { cliques := n, borders := (done ++ [p]).length, alive := (List.range n).reverse, pending := ((done ++ [p]).reverse).map (borderOf n), confirmed := [] } := by
        simp [GroveStep.after, borderOf, hi]
      rw [e]
      exact h1
    · have e : (GroveStep.newBorder p.1 p.2).after { cliques := n, borders := done.length, alive := (List.range n).reverse, pending := (done.reverse).map (borderOf n), confirmed := [] } =
          { cliques := n, borders := (done ++ [p]).length, alive := (List.range n).reverse, pending := ((done ++ [p]).reverse).map (borderOf n), confirmed := [] } := by
        simp [GroveStep.after, borderOf, hi]
      rw [List.map_cons, Grove.afterAll, e]
      exact h2

/-- the pair of a candidate -/
def pairOf (x : HeapItem (Sepset K)) : Nat × Nat := (x.content.first, x.content.second)

theorem drainCalls_ok {n : Nat} {L : List (Nat × Nat)} : ∀ (fuel : Nat) {h : Heap (Sepset K)} {gone : List (Nat × Nat)}, Heap.Ord h.items 0 none →
    (h.items.map pairOf).Nodup → (∀ x ∈ h.items, pairOf x ∈ candidatePairs n ∧ pairOf x ∉ gone) → h.items.length < fuel →
    ∃ calls gone', drainCalls n fuel h = ok calls ∧ (groveOf n gone L).allows calls ∧ (groveOf n gone L).afterAll calls = groveOf n gone' L ∧
      ∀ p, p ∈ gone' ↔ p ∈ gone ∨ p ∈ h.items.map pairOf
  | 0, _, _, _, _, _, h => by omega
  | fuel + 1, h, gone, ho, hn, hc, hf => by
    unfold drainCalls
    by_cases he : h.items.length < 1
    · have hnil : h.items = [] := List.length_eq_zero_iff.1 (by omega)
      have : h.extractMin = ok (none, h) := by
        unfold Heap.extractMin
        rw [if_pos he]
      rw [this]
      refine ⟨[], gone, rfl, trivial, rfl, ?_⟩
      simp [hnil]
    · obtain ⟨g, e1, e2, e3⟩ := Heap.extractMin_ord h (by omega) ho
      have hpos : 0 < h.items.length := by omega
      have hm := hc _ (List.getElem_mem hpos)
      have hnd : (pairOf h.items[0] :: g.items.map pairOf).Nodup := (e2.map pairOf).nodup_iff.2 hn
      rw [List.nodup_cons] at hnd
      obtain ⟨a1, a2⟩ := groveOf_free (L := L) hm.1 hm.2
      obtain ⟨calls, gone', b1, b2, b3, b4⟩ := drainCalls_ok (n := n) (L := L) fuel (h := g) (gone := pairOf h.items[0] :: gone) e3 hnd.2
        (by
          intro x hx
          have := hc x (e2.mem_iff.1 (List.mem_cons_of_mem _ hx))
          refine ⟨this.1, ?_⟩
          rw [List.mem_cons, not_or]
          exact ⟨fun h => hnd.1 (h ▸ List.mem_map_of_mem hx), this.2⟩)
        (by have := e2.length_eq; simp at this; omega)
      rw [e1, ok_bind]
      simp only
      rw [b1]
      refine ⟨_, gone', rfl, ⟨a1, ?_⟩, ?_, ?_⟩
      · have : (GroveStep.freeBorder (candidateName n h.items[0].content)).after (groveOf n gone L) = _ := a2
        rw [this]
        exact b2
      · rw [Grove.afterAll]
        have : (GroveStep.freeBorder (candidateName n h.items[0].content)).after (groveOf n gone L) = _ := a2
        rw [this]
        exact b3
      · intro p
        rw [b4, ← (e2.map pairOf).mem_iff]
        simp only [List.map_cons, List.mem_cons]
        tauto

namespace JTree

/-- what is known about the candidates `R` that have been rejected -/
structure Lost (vars : Nat → List Nat) (n : Nat) (h : Heap (Sepset K)) (L R : List (Nat × Nat)) : Prop where
  pairs : ∀ p ∈ candidatePairs n, p ∈ L ∨ p ∈ R ∨ p ∈ h.items.map pairOf
  fresh : (h.items.map pairOf).Nodup ∧ ∀ p ∈ h.items.map pairOf, p ∈ candidatePairs n ∧ p ∉ L ∧ p ∉ R
  rejected : ∀ p ∈ R, p ∈ candidatePairs n ∧ p ∉ L
  joined : ∀ p ∈ R, comp L p.1 = comp L p.2
  heavy : ∀ p ∈ R, ∀ x ∈ h.items, -(wt vars p : Int) ≤ x.primary
  ended : L.length + 1 = n → ∀ e L', L = e :: L' → ∀ p ∈ R, comp L' p.1 = comp L' p.2 ∧ wt vars e ≤ wt vars p

theorem sepsetLoopCalls_ok (card : Nat → Nat) (vars : Nat → List Nat) (t0 : JTree K) (hn : 2 ≤ t0.cliques.length) (fuel : Nat) :
    ∀ (t : JTree K) (h : Heap (Sepset K)) (L R : List (Nat × Nat)), SInv card vars t0 t h L → Lost vars t0.cliques.length h L R → h.items.length + 1 < fuel →
    ∃ t' h' L' R' calls gone, sepsetLoop fuel L.length h t = ok (0, t') ∧ sepsetLoopCalls fuel L.length h t = ok (0, t', calls) ∧
      SInv card vars t0 t' h' L' ∧ L'.length + 1 = t0.cliques.length ∧ Lost vars t0.cliques.length h' L' R' ∧
      (groveOf t0.cliques.length L L).allows calls ∧ (groveOf t0.cliques.length L L).afterAll calls = groveOf t0.cliques.length gone L' ∧
      ∀ p, p ∈ gone ↔ p ∈ L' ∨ p ∈ h'.items.map pairOf := by
  induction fuel with
  | zero => intro t h L R _ _ hf; omega
  | succ fuel ih =>
    intro t h L R hi hl hf
    have hsp := spanning (n := t0.cliques.length) (by rw [← hi.len]; exact hi.kinv.range) hi.kinv.forest (by omega)
    unfold sepsetLoop sepsetLoopCalls
    by_cases hlt : L.length < t.cliques.length - 1
    · rw [if_pos hlt, if_pos hlt]
      obtain ⟨g, i, j, b, t1, e1, hij, hj, e2, e3, ⟨x, hx, hxc, hp⟩, hroot, e4, e5⟩ := sepset_step card vars t0 hn t h L hi hlt
      have hglen : g.items.length + 1 = h.items.length := by simpa using hp.length_eq
      have hpair : pairOf x = (i, j) := by unfold pairOf; rw [hxc]; rfl
      have hcp : (i, j) ∈ candidatePairs t0.cliques.length := mem_candidatePairs.2 ⟨hij, hj⟩
      have hpm := hp.map pairOf
      rw [List.map_cons, hpair] at hpm
      have hnd : ((i, j) :: g.items.map pairOf).Nodup := hpm.nodup_iff.2 hl.fresh.1
      rw [List.nodup_cons] at hnd
      have hxin := hl.fresh.2 (i, j) (hpm.mem_iff.1 (by simp))
      have hxprim : x.primary = -(wt vars (i, j) : Int) := by
        obtain ⟨i', j', _, _, hc', hp'⟩ := (hi.cand x hx).eq
        rw [hxc] at hc'
        have q1 : i = i' := congrArg Sepset.first hc'
        have q2 : j = j' := congrArg Sepset.second hc'
        subst q1; subst q2
        exact hp'
      rw [e1, ok_bind]
      simp only
      rw [e2, ok_bind]
      have hfs : (mkSep (K := K) card vars (i, j)).first = i ∧ (mkSep (K := K) card vars (i, j)).second = j := ⟨rfl, rfl⟩
      rw [hfs.1, hfs.2, e3, ok_bind]
      simp only [ok_bind, hfs.1, hfs.2, e3]
      cases b with
      | true =>
        obtain ⟨hcc, hi'⟩ := e4 rfl
        simp only [Bool.not_true, Bool.false_eq_true, if_false]
        refine ih t1 g L ((i, j) :: R) hi' ⟨?_, ⟨hnd.2, ?_⟩, ?_, ?_, ?_, ?_⟩ (by omega)
        · intro p hpc
          rcases hl.pairs p hpc with h1 | h1 | h1
          · exact Or.inl h1
          · exact Or.inr (Or.inl (List.mem_cons_of_mem _ h1))
          · rcases List.mem_cons.1 (hpm.mem_iff.2 h1) with rfl | h1
            · exact Or.inr (Or.inl (List.mem_cons_self ..))
            · exact Or.inr (Or.inr h1)
        · intro p hpg
          obtain ⟨h1, h2, h3⟩ := hl.fresh.2 p (hpm.mem_iff.1 (List.mem_cons_of_mem _ hpg))
          refine ⟨h1, h2, ?_⟩
          rw [List.mem_cons, not_or]
          exact ⟨fun he => hnd.1 (he ▸ hpg), h3⟩
        · intro p hpr
          rcases List.mem_cons.1 hpr with rfl | hpr
          · exact ⟨hcp, hxin.2.1⟩
          · exact hl.rejected p hpr
        · intro p hpr
          rcases List.mem_cons.1 hpr with rfl | hpr
          · exact hcc
          · exact hl.joined p hpr
        · intro p hpr y hy
          rcases List.mem_cons.1 hpr with rfl | hpr
          · exact hroot y hy
          · exact hl.heavy p hpr y (hp.mem_iff.1 (List.mem_cons_of_mem _ hy))
        · intro hlen
          have := hi.len
          omega
      | false =>
        obtain ⟨hcc, t2, f1, f2⟩ := e5 rfl
        simp only [Bool.not_false, if_true]
        rw [f1, ok_bind, ok_bind]
        have hl' : Lost vars t0.cliques.length g ((i, j) :: L) R := by
          refine ⟨?_, ⟨hnd.2, ?_⟩, ?_, ?_, ?_, ?_⟩
          · intro p hpc
            rcases hl.pairs p hpc with h1 | h1 | h1
            · exact Or.inl (List.mem_cons_of_mem _ h1)
            · exact Or.inr (Or.inl h1)
            · rcases List.mem_cons.1 (hpm.mem_iff.2 h1) with rfl | h1
              · exact Or.inl (List.mem_cons_self ..)
              · exact Or.inr (Or.inr h1)
          · intro p hpg
            obtain ⟨h1, h2, h3⟩ := hl.fresh.2 p (hpm.mem_iff.1 (List.mem_cons_of_mem _ hpg))
            refine ⟨h1, ?_, h3⟩
            rw [List.mem_cons, not_or]
            exact ⟨fun he => hnd.1 (he ▸ hpg), h2⟩
          · intro p hpr
            refine ⟨(hl.rejected p hpr).1, ?_⟩
            rw [List.mem_cons, not_or]
            exact ⟨fun he => hxin.2.2 (he ▸ hpr), (hl.rejected p hpr).2⟩
          · intro p hpr
            exact comp_subset (fun e he => List.mem_cons_of_mem _ he) _ _ (hl.joined p hpr)
          · intro p hpr y hy
            exact hl.heavy p hpr y (hp.mem_iff.1 (List.mem_cons_of_mem _ hy))
          · intro _ e L' heq p hpr
            obtain ⟨rfl, rfl⟩ := List.cons.inj heq
            refine ⟨hl.joined p hpr, ?_⟩
            have := hl.heavy p hpr x hx
            omega
        obtain ⟨t', h', L', R', calls, gone, r1, r2, r3, r4, r5, r6, r7, r8⟩ := ih t2 g ((i, j) :: L) R f2 hl' (by omega)
        rw [List.length_cons] at r1 r2
        obtain ⟨c1, c2⟩ := groveOf_confirm (n := t0.cliques.length) (gone := L) (L := L) hcp hxin.2.1
        have hname : candidateName t2.cliques.length (mkSep (K := K) card vars (i, j)) = (candidatePairs t0.cliques.length).idxOf (i, j) := by
          unfold candidateName
          rw [f2.len]
          rfl
        refine ⟨t', h', L', R', .confirm ((candidatePairs t0.cliques.length).idxOf (i, j)) :: calls, gone, r1, ?_, r3, r4, r5, ⟨c1, by rw [c2]; exact r6⟩, by rw [Grove.afterAll, c2]; exact r7, r8⟩
        rw [r2, ok_bind]
        simp only [hname]
    · rw [if_neg hlt, if_neg hlt]
      have hlen := hi.len
      obtain ⟨calls, gone, d1, d2, d3, d4⟩ := drainCalls_ok (n := t0.cliques.length) (L := L) (h.items.length + 1) (gone := L) hi.ord hl.fresh.1
        (by
          intro x hx
          have := hl.fresh.2 _ (List.mem_map_of_mem (f := pairOf) hx)
          exact ⟨this.1, this.2.1⟩) (by omega)
      rw [hlen, d1]
      exact ⟨t, h, L, R, calls, gone, rfl, rfl, hi, by omega, hl, d2, d3, d4⟩

theorem createSepsetsCalls_ok (ptr : Nat) (card : Nat → Nat) (t0 : JTree K) (vars : Nat → List Nat)
    (hv : ∀ i (h : i < t0.cliques.length), t0.cliques[i].vars = vars i) (hn : 2 ≤ t0.cliques.length) (hs : t0.sepsets = [])
    (ha : ∀ c, t0.adj c = []) :
    ∃ t' h L R calls gone, t0.createSepsets ptr card = ok (0, t') ∧ t0.createSepsetsCalls ptr card = ok (0, t', calls) ∧
      SInv card vars t0 t' h L ∧ L.length + 1 = t0.cliques.length ∧ Lost vars t0.cliques.length h L R ∧
      Grove.none.allows (List.replicate t0.cliques.length .newClique ++ calls) ∧
      Grove.none.afterAll (List.replicate t0.cliques.length .newClique ++ calls) = groveOf t0.cliques.length gone L ∧
      ∀ p, p ∈ gone ↔ p ∈ L ∨ p ∈ h.items.map pairOf := by
  obtain ⟨h, h1, h2, h3, h4, h5⟩ := buildSepsetHeap_eq ptr card t0 vars hv hn
  have hi : SInv card vars t0 t0 h [] := by
    refine ⟨⟨?_, by rw [hs]; rfl, trivial, by simp⟩, rfl, fun _ => rfl, by rw [hs]; rfl, h3, h2, by simp, fun i j hij hj => Or.inl (h4 i j hij hj),
      by simp⟩
    intro r hr
    refine ⟨.nil, ⟨by rw [ha]; rfl, trivial, by simp [Forest.nodes], by simpa [Forest.nodes] using hr⟩, ?_⟩
    intro x _
    simp [Forest.nodes, comp]
  have hsub : candidatePairs t0.cliques.length ⊆ h.items.map pairOf := by
    intro p hp
    obtain ⟨hp1, hp2⟩ := mem_candidatePairs.1 hp
    obtain ⟨x, hx, hxc⟩ := h4 p.1 p.2 hp1 hp2
    refine List.mem_map.2 ⟨x, hx, ?_⟩
    unfold pairOf
    rw [hxc]
    rfl
  have hperm : (candidatePairs t0.cliques.length).Perm (h.items.map pairOf) :=
    (List.subperm_of_subset (candidatePairs_nodup _) hsub).perm_of_length_le (by rw [List.length_map, h5, candidatePairs_length])
  have hl : Lost vars t0.cliques.length h [] [] := by
    refine ⟨fun p hp => Or.inr (Or.inr (hsub hp)), ⟨hperm.nodup_iff.1 (candidatePairs_nodup _), ?_⟩, by simp, by simp, by simp, by simp⟩
    intro p hp
    exact ⟨hperm.mem_iff.2 hp, by simp, by simp⟩
  obtain ⟨t', h', L, R, calls, gone, r1, r2, r3, r4, r5, r6, r7, r8⟩ := sepsetLoopCalls_ok card vars t0 hn (h.items.length + 2) t0 h [] [] hi hl (by omega)
  obtain ⟨c1, c2⟩ := cliques_made t0.cliques.length
  obtain ⟨d1, d2⟩ := borders_made t0.cliques.length [] (candidatePairs t0.cliques.length) rfl
  refine ⟨t', h', L, R, candidateCalls t0.cliques.length ++ calls, gone, ?_, ?_, r3, r4, r5, ?_, ?_, r8⟩
  · unfold createSepsets
    rw [h1, ok_bind]
    exact r1
  · unfold createSepsetsCalls
    rw [h1, ok_bind]
    have r2' : sepsetLoopCalls (h.items.length + 2) 0 h t0 = ok (0, t', calls) := r2
    simp only [r2', ok_bind]
  · rw [allows_append, c2, allows_append]
    refine ⟨c1, d1, ?_⟩
    have d2' : Grove.afterAll { cliques := t0.cliques.length, borders := 0, alive := (List.range t0.cliques.length).reverse, pending := [], confirmed := [] } (candidateCalls t0.cliques.length) = _ := d2
    rw [d2']
    exact r6
  · rw [afterAll_append, c2, afterAll_append]
    have d2' : Grove.afterAll { cliques := t0.cliques.length, borders := 0, alive := (List.range t0.cliques.length).reverse, pending := [], confirmed := [] } (candidateCalls t0.cliques.length) = _ := d2
    rw [d2']
    exact r7

end JTree

end Nip
