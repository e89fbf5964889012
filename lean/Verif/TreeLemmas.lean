import Verif.SepsetLemmas
import Verif.ElimJunction
import Verif.Spec.Tree

/-! # The clique tree is a tree with the running intersection property -/

namespace Nip

open Res Spec

set_option linter.unusedSectionVars false

variable {K : Type} [Zero K] [One K] [Add K] [_root_.Sub K] [Mul K] [Div K] [LinearOrder K]

/-- a chain of pairs is a walk -/
theorem walk_of_chain {n : Nat} {pairs : List (Nat × Nat)} (S : Nat → Prop) {R : Nat → Nat → Prop}
    (hR : ∀ a b, R a b → (a, b) ∈ pairs ∧ a < n ∧ b < n ∧ a ≠ b ∧ S a ∧ S b) {x y : Nat} (h : Relation.EqvGen R x y) :
    x = y ∨ ∃ (hx : x < n) (hy : y < n) (p : (pairGraph n pairs).Walk ⟨x, hx⟩ ⟨y, hy⟩), ∀ k ∈ p.support, S k.1 := by
  induction h with
  | rel a b h =>
    obtain ⟨h1, h2, h3, h4, h5, h6⟩ := hR a b h
    have hadj : (pairGraph n pairs).Adj ⟨a, h2⟩ ⟨b, h3⟩ := ⟨by simpa using h4, Or.inl h1⟩
    refine Or.inr ⟨h2, h3, hadj.toWalk, ?_⟩
    intro k hk
    simp at hk
    rcases hk with rfl | rfl
    · exact h5
    · exact h6
  | refl a => exact Or.inl rfl
  | symm a b _ ih =>
    rcases ih with rfl | ⟨h1, h2, p, hp⟩
    · exact Or.inl rfl
    · refine Or.inr ⟨h2, h1, p.reverse, ?_⟩
      intro k hk
      rw [SimpleGraph.Walk.support_reverse, List.mem_reverse] at hk
      exact hp k hk
  | trans a b c _ _ ih1 ih2 =>
    rcases ih1 with rfl | ⟨h1, h2, p, hp⟩
    · exact ih2
    · rcases ih2 with rfl | ⟨h3, h4, q, hq⟩
      · exact Or.inr ⟨h1, h2, p, hp⟩
      · refine Or.inr ⟨h1, h4, p.append q, ?_⟩
        intro k hk
        rw [SimpleGraph.Walk.mem_support_append_iff] at hk
        rcases hk with hk | hk
        · exact hp k hk
        · exact hq k hk

/-- a spanning forest with one edge less than nodes is a tree -/
theorem pairGraph_tree {n : Nat} (pairs L : List (Nat × Nat)) (hpL : pairs = L.reverse) (hL : ∀ e ∈ L, e.1 < n ∧ e.2 < n) (hf : IsForest L) (hlen : L.length + 1 = n) :
    (pairGraph n pairs).IsTree := by
  have hsp := (JTree.spanning hL hf (by omega)).2.2 hlen
  have hne : ∀ e ∈ L, e.1 ≠ e.2 := by
    clear hsp hlen hL hpL
    induction L with
    | nil => simp
    | cons e L ih =>
      obtain ⟨a, b⟩ := e
      intro x hx
      rcases List.mem_cons.mp hx with rfl | hx
      · intro e; exact hf.1 (by simp only at e; rw [e])
      · exact ih hf.2 x hx
  haveI : Nonempty (Fin n) := ⟨⟨0, by omega⟩⟩
  have hmem : ∀ e, e ∈ pairs ↔ e ∈ L := by intro e; rw [hpL, List.mem_reverse]
  have hconn : (pairGraph n pairs).Connected := by
    refine ⟨?_⟩
    intro x y
    have h := (comp_iff L x.1 y.1).mp (hsp x.1 y.1 x.2 y.2)
    rcases walk_of_chain (n := n) (pairs := pairs) (fun _ => True) (fun a b hab => ⟨(hmem _).mpr hab, (hL _ hab).1, (hL _ hab).2, hne _ hab, trivial, trivial⟩) h with e | ⟨hx, hy, p, _⟩
    · have : x = y := Fin.ext e
      rw [this]
    · exact ⟨p⟩
  rw [SimpleGraph.isTree_iff_connected_and_card]
  refine ⟨hconn, ?_⟩
  have h1 := hconn.card_vert_le_card_edgeSet_add_one
  rw [Nat.card_fin] at h1 ⊢
  have h2 : Nat.card (pairGraph n pairs).edgeSet ≤ L.length := by
    classical
    let f : Nat × Nat → Sym2 (Fin n) := fun e => if h : e.1 < n ∧ e.2 < n then s(⟨e.1, h.1⟩, ⟨e.2, h.2⟩) else s(⟨0, by omega⟩, ⟨0, by omega⟩)
    have hsub : (pairGraph n pairs).edgeSet ⊆ ((L.map f).toFinset : Set (Sym2 (Fin n))) := by
      intro e
      induction e using Sym2.ind with
      | _ a b =>
        intro he
        rw [SimpleGraph.mem_edgeSet] at he
        simp only [List.coe_toFinset, Set.mem_setOf_eq, List.mem_map]
        rcases he.2 with h | h
        · exact ⟨_, (hmem _).mp h, by simp [f]⟩
        · exact ⟨_, (hmem _).mp h, by simp [f, Sym2.eq_swap]⟩
    have := Nat.card_mono (Finset.finite_toSet _) hsub
    refine this.trans ?_
    rw [Nat.card_eq_card_toFinset]
    simp only [Finset.toFinset_coe]
    exact (List.toFinset_card_le _).trans (by simp)
  omega

/-- the variables of a clique of the tree -/
def JTree.varsOf (t : JTree K) (c : Nat) : List Nat :=
  match t.cliques[c]? with
  | some cl => cl.vars
  | none => []

/-- A variable of two cliques: they are connected through separators containing it. -/
def JTree.Rip (t : JTree K) : Prop :=
  ∀ v i j, v ∈ t.varsOf i → v ∈ t.varsOf j →
    Relation.EqvGen (fun a b => ∃ s ∈ t.sepsets, s.first = a ∧ s.second = b ∧ v ∈ s.vars) i j

/-- The clique trees that inference is about. -/
structure JTree.Good (card : Nat → Nat) (t : JTree K) (L : List (Nat × Nat)) : Prop where
  kinv : JTree.KInv t L
  len : L.length + 1 = t.cliques.length
  sepvars : ∀ s ∈ t.sepsets, s.vars = (t.varsOf s.first).filter (· ∈ t.varsOf s.second)
  rip : t.Rip

theorem good_tree {card : Nat → Nat} {t : JTree K} {L : List (Nat × Nat)} (h : t.Good card L) : (cliqueGraph t).IsTree :=
  pairGraph_tree _ L h.kinv.ends h.kinv.range h.kinv.forest h.len

theorem good_running {card : Nat → Nat} {t : JTree K} {L : List (Nat × Nat)} (h : t.Good card L) : RunningIntersection t := by
  have htree := good_tree h
  intro i j p hp v hvi hvj
  have e : ∀ k : Fin t.cliques.length, t.varsOf k.1 = t.cliques[k].vars := by
    intro k; unfold JTree.varsOf; rw [List.getElem?_eq_getElem k.2]; rfl
  have hnf : ∀ e ∈ L, e.1 ≠ e.2 := by
    have hf := h.kinv.forest
    clear p hp h
    induction L with
    | nil => simp
    | cons e L ih =>
      obtain ⟨a, b⟩ := e
      intro x hx
      rcases List.mem_cons.mp hx with rfl | hx
      · intro e; exact hf.1 (by simp only at e; rw [e])
      · exact ih hf.2 x hx
  have hends := h.kinv.ends
  have hmemL : ∀ s ∈ t.sepsets, (s.first, s.second) ∈ L := by
    intro s hs
    rw [← List.mem_reverse, ← hends]
    exact List.mem_map.mpr ⟨s, hs, rfl⟩
  have hch := h.rip v i.1 j.1 (by rw [e]; exact hvi) (by rw [e]; exact hvj)
  have hsup : ∀ k ∈ p.support, v ∈ t.varsOf k.1 := by
    rcases walk_of_chain (n := t.cliques.length) (pairs := t.sepsets.map (fun s => (s.first, s.second))) (fun k => v ∈ t.varsOf k)
      (by
        rintro a b ⟨s, hs, rfl, rfl, hv⟩
        have hL := hmemL s hs
        rw [h.sepvars s hs, List.mem_filter] at hv
        exact ⟨List.mem_map.mpr ⟨s, hs, rfl⟩, (h.kinv.range _ hL).1, (h.kinv.range _ hL).2, hnf _ hL, hv.1, by simpa using hv.2⟩) hch with
      heq | ⟨hx, hy, q, hq⟩
    · have : i = j := Fin.ext heq
      subst this
      have : p = SimpleGraph.Walk.nil := SimpleGraph.Walk.isPath_iff_eq_nil.mp hp
      rw [this]
      intro k hk
      simp at hk
      rw [hk, e]; exact hvi
    · have := (htree.isAcyclic.subsingleton_path _ _).elim ⟨p, hp⟩ ⟨q.bypass, q.bypass_isPath⟩
      have hpq : p = q.bypass := congrArg Subtype.val this
      intro k hk
      rw [hpq] at hk
      exact hq k (q.support_bypass_subset_support hk)
  refine ⟨fun k hk => by rw [← e]; exact hsup k hk, ?_⟩
  intro s hs a b ha hb hab
  have h1 := hsup a (p.fst_mem_support_of_mem_edges hab)
  have h2 := hsup b (p.snd_mem_support_of_mem_edges hab)
  rw [h.sepvars s hs, List.mem_filter, ha, hb]
  exact ⟨h1, by simpa using h2⟩

theorem ofSorted_eq (card : Nat → Nat) (vs : List Nat) : Clique.ofSorted (K := K) card vs = ok (some
    { vars := vs, p := ⟨vs.map card, List.replicate (vs.map card).prod 1⟩, orig := ⟨vs.map card, List.replicate (vs.map card).prod 1⟩,
      sepsets := [], mark := false }) := by
  unfold Clique.ofSorted
  simp only [Potential.new_none, ok_bind]

/-- the clique made of a set of variables -/
def mkClique (card : Nat → Nat) (vs : List Nat) : Clique K :=
  { vars := vs, p := ⟨vs.map card, List.replicate (vs.map card).prod 1⟩, orig := ⟨vs.map card, List.replicate (vs.map card).prod 1⟩,
    sepsets := [], mark := false }

theorem makeCliques_eq (card : Nat → Nat) (sets : List (List Nat)) : makeCliques (K := K) card sets = ok (sets.map (mkClique card)) := by
  unfold makeCliques
  induction sets with
  | nil => rfl
  | cons vs sets ih =>
    rw [List.mapM_cons, ofSorted_eq, ok_bind]
    simp only
    rw [ok_bind, ih, ok_bind]
    rfl

/-- **The tree made of the cliques of an elimination sequence.** -/
theorem createSepsets_good (ptr : Nat) (card : Nat → Nat) {R : Finset Nat} {A : Nat → Nat → Prop} {seq : List (Nat × Finset Nat)}
    (hE : Elim R A seq) (hpos : 0 < (keep [] seq).length) :
    ∃ code t L, JTree.createSepsets (K := K) ptr card
        { cliques := ((keep [] seq).reverse.map (fun c => c.sort (· ≤ ·))).map (mkClique card), sepsets := [] } = ok (code, t) ∧
      t.Good card L ∧ (code = 0 ↔ (keep [] seq).length ≠ 1) ∧
      t.sepsets = L.reverse.map (mkSep card t.varsOf) ∧
      t.cliques.map (fun cl => (cl.vars, cl.p, cl.orig)) =
        (((keep [] seq).reverse.map (fun c => c.sort (· ≤ ·))).map (mkClique card)).map (fun cl => (cl.vars, cl.p, cl.orig)) := by
  obtain ⟨sets, hsets⟩ : ∃ sets, sets = (keep [] seq).reverse := ⟨_, rfl⟩
  rw [← hsets]
  have hslen : sets.length = (keep [] seq).length := by rw [hsets]; simp
  have hmem : ∀ x, x ∈ sets ↔ x ∈ keep [] seq := by intro x; rw [hsets, List.mem_reverse]
  obtain ⟨t0, ht0⟩ : ∃ t0 : JTree K, t0 = { cliques := (sets.map (fun c => c.sort (· ≤ ·))).map (mkClique card), sepsets := [] } := ⟨_, rfl⟩
  rw [← ht0]
  have hlen0 : t0.cliques.length = sets.length := by rw [ht0]; simp
  have hadj : ∀ c, t0.adj c = [] := by
    intro c
    unfold JTree.adj
    rw [ht0]
    simp only [List.getElem?_map]
    cases sets[c]? <;> rfl
  have hvars : ∀ i (hi : i < sets.length), t0.varsOf i = sets[i].sort (· ≤ ·) := by
    intro i hi
    unfold JTree.varsOf
    rw [ht0]
    simp only [List.getElem?_map, List.getElem?_eq_getElem hi, Option.map_some]
    rfl
  have hvars' : ∀ i, sets.length ≤ i → t0.varsOf i = [] := by
    intro i hi
    unfold JTree.varsOf
    rw [ht0]
    simp only [List.getElem?_map, List.getElem?_eq_none hi, Option.map_none]
  have hpw : (keep [] seq).Pairwise (fun x y => ¬ x ⊆ y ∧ ¬ y ⊆ x) := hE.antichain [] List.Pairwise.nil (by simp)
  have hnodup : sets.Nodup := by
    rw [hsets, List.nodup_reverse]
    exact hpw.imp (fun h e => h.1 (by rw [e]))
  by_cases h1 : sets.length = 1
  · -- a single clique
    have hheap : t0.buildSepsetHeap ptr card = ok none := by
      unfold JTree.buildSepsetHeap
      rw [hlen0, h1]
      rfl
    refine ⟨ENOMEM, t0, [], ?_, ⟨⟨?_, ?_, trivial, by simp⟩, ?_, ?_, ?_⟩, ?_, ?_, ?_⟩
    · unfold JTree.createSepsets
      rw [hheap, ok_bind]
    · intro r hr
      refine ⟨.nil, ⟨by rw [hadj]; rfl, trivial, by simp [Forest.nodes], by simpa [Forest.nodes] using hr⟩, ?_⟩
      intro x _
      simp [Forest.nodes, comp]
    · rw [ht0]; rfl
    · rw [hlen0, h1]; rfl
    · rw [ht0]; intro s hs; cases hs
    · intro v i j hi hj
      have hi0 : i = 0 := by
        by_contra hne
        rw [hvars' i (by omega)] at hi; cases hi
      have hj0 : j = 0 := by
        by_contra hne
        rw [hvars' j (by omega)] at hj; cases hj
      rw [hi0, hj0]; exact Relation.EqvGen.refl _
    · rw [← hslen, h1]; simp [ENOMEM]
    · rw [ht0]; rfl
    · rw [ht0]
  · have h2 : 2 ≤ t0.cliques.length := by omega
    obtain ⟨t, L, c1, c2, c3, c4, c5, c6, c7, c8⟩ := JTree.createSepsets_eq ptr card t0 t0.varsOf
      (by intro i hi; unfold JTree.varsOf; rw [List.getElem?_eq_getElem hi]) h2 (by rw [ht0]) hadj
    have hvt : ∀ c, t.varsOf c = t0.varsOf c := by
      intro c
      have := c4 c
      unfold JTree.varsOf
      cases h3 : t.cliques[c]? <;> cases h4 : t0.cliques[c]? <;> rw [h3, h4] at this <;> simp at this
      exact this.1
    have hvteq : t.varsOf = t0.varsOf := funext hvt
    rw [← hvteq] at c5 c8
    rw [hlen0] at c3 c6 c8
    -- the sets as nodes
    let C : Nat → VSet := fun i => (t.varsOf i).toFinset
    have hC : ∀ i (hi : i < sets.length), C i = sets[i] := by
      intro i hi
      simp only [C]
      rw [hvt, hvars i hi, Finset.sort_toFinset]
    have hrange : ∀ e ∈ L, e.1 < sets.length ∧ e.2 < sets.length := by rw [← c3]; exact c2.range
    have hinj : ∀ x ∈ Finset.range sets.length, ∀ y ∈ Finset.range sets.length, C x = C y → x = y := by
      intro x hx y hy hxy
      simp only [Finset.mem_range] at hx hy
      rw [hC x hx, hC y hy] at hxy
      exact (List.Nodup.getElem_inj_iff hnodup).mp hxy
    have hrange' : ∀ e ∈ L, e.1 ∈ Finset.range sets.length ∧ e.2 ∈ Finset.range sets.length := by simpa using hrange
    have hwt : ∀ e : Nat × Nat, e.1 < sets.length → JTree.wt t.varsOf e = (C e.1 ∩ C e.2).card := by
      intro e he
      have hnd : (t.varsOf e.1).Nodup := by rw [hvt, hvars _ he]; exact Finset.sort_nodup _ _
      unfold JTree.wt
      rw [← List.toFinset_card_of_nodup (hnd.filter _)]
      congr 1
      ext v
      simp [C]
    let L' : List (VSet × VSet) := L.map (fun e => (C e.1, C e.2))
    have hL' : ∀ e ∈ L', e.1 ∈ keep [] seq ∧ e.2 ∈ keep [] seq := by
      intro e he
      obtain ⟨e', he', rfl⟩ := List.mem_map.mp he
      have := hrange e' he'
      simp only
      rw [hC _ this.1, hC _ this.2, ← hmem, ← hmem]
      exact ⟨List.getElem_mem _, List.getElem_mem _⟩
    have hfil : ∀ (p : VSet × VSet → Bool) (q : Nat × Nat → Bool), (∀ e ∈ L, p (C e.1, C e.2) = q e) →
        L'.filter p = (L.filter q).map (fun e => (C e.1, C e.2)) := by
      intro p q hpq
      simp only [L']
      rw [List.filter_map]
      congr 1
      apply List.filter_congr
      intro e he
      exact hpq e he
    have hg : Greedy (keep [] seq).toFinset L' := by
      intro k x hx y hy hk
      rw [List.mem_toFinset, ← hmem] at hx hy
      obtain ⟨i, hi, rfl⟩ := List.getElem_of_mem hx
      obtain ⟨j, hj, rfl⟩ := List.getElem_of_mem hy
      unfold edgesGe
      rw [hfil _ (fun e => decide (k ≤ JTree.wt t.varsOf e)) (by
        intro e he; simp only [hwt e (hrange e he).1])]
      have hsubr : ∀ e ∈ L.filter (fun e => decide (k ≤ JTree.wt t.varsOf e)), e.1 ∈ Finset.range sets.length ∧ e.2 ∈ Finset.range sets.length :=
        fun e he => hrange' e (List.mem_filter.mp he).1
      rw [← hC i hi, ← hC j hj, comp_map C _ (Finset.range sets.length) hsubr hinj i (by simpa using hi),
        comp_map C _ (Finset.range sets.length) hsubr hinj j (by simpa using hj)]
      congr 1
      rw [← hC i hi, ← hC j hj] at hk
      rcases Nat.lt_trichotomy i j with hij | hij | hij
      · exact c8 k i j hi hj hij (by rw [hwt _ hi]; exact hk)
      · rw [hij]
      · exact (c8 k j i hj hi hij (by rw [hwt _ hj, Finset.inter_comm]; exact hk)).symm
    have hjun := keep_junction hE L' hL' (forest_map C L (Finset.range sets.length) hrange' hinj c2.forest) hg
    refine ⟨0, t, L, c1, ⟨c2, by rw [c3]; exact c6, ?_, ?_⟩, ?_, c5, ?_⟩
    · intro s hs
      rw [c5] at hs
      obtain ⟨e, he, rfl⟩ := List.mem_map.mp hs
      rfl
    · intro v i j hvi hvj
      have lt : ∀ c, v ∈ t.varsOf c → c < sets.length := by
        intro c hc
        by_contra hge
        rw [hvt, hvars' c (by omega)] at hc; cases hc
      have hi := lt i hvi
      have hj := lt j hvj
      have hv1 : v ∈ C i := by simpa [C] using hvi
      have hv2 : v ∈ C j := by simpa [C] using hvj
      have hin : ∀ c (hc : c < sets.length), C c ∈ keep [] seq := by
        intro c hc; rw [hC c hc, ← hmem]; exact List.getElem_mem _
      have h5 := hjun v (C i) (hin i hi) (C j) (hin j hj) hv1 hv2
      unfold edgesAt at h5
      rw [hfil _ (fun e => decide (v ∈ t.varsOf e.1 ∧ v ∈ t.varsOf e.2)) (by
        intro e he; simp [C])] at h5
      have hsubr : ∀ e ∈ L.filter (fun e => decide (v ∈ t.varsOf e.1 ∧ v ∈ t.varsOf e.2)), e.1 ∈ Finset.range sets.length ∧ e.2 ∈ Finset.range sets.length :=
        fun e he => hrange' e (List.mem_filter.mp he).1
      rw [comp_map C _ (Finset.range sets.length) hsubr hinj i (by simpa using hi),
        comp_map C _ (Finset.range sets.length) hsubr hinj j (by simpa using hj)] at h5
      have h6 := hinj _ (comp_mem _ _ hsubr i (by simpa using hi)) _ (comp_mem _ _ hsubr j (by simpa using hj)) h5
      refine Relation.EqvGen.mono ?_ _ _ ((comp_iff _ _ _).mp h6)
      intro a b hab
      rw [List.mem_filter] at hab
      simp only [decide_eq_true_eq] at hab
      refine ⟨mkSep card t.varsOf (a, b), ?_, rfl, rfl, ?_⟩
      · rw [c5]; exact List.mem_map.mpr ⟨(a, b), List.mem_reverse.mpr hab.1, rfl⟩
      · simp only [mkSep, List.mem_filter, decide_eq_true_eq]; exact hab.2
    · rw [← hslen]; simp [h1]
    · have : t.cliques.map (fun cl => (cl.vars, cl.p, cl.orig)) = t0.cliques.map (fun cl => (cl.vars, cl.p, cl.orig)) := by
        apply List.ext_getElem?
        intro i
        rw [List.getElem?_map, List.getElem?_map]
        exact c4 i
      rw [this, ht0]

end Nip
