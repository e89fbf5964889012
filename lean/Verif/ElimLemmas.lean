import Verif.TriangulateLemmas

/-! # Lemmas about elimination sequences and kept clusters -/

namespace Nip

open Res Graph

theorem keep_mono (t : List (Nat × Finset Nat)) : ∀ (K : List (Finset Nat)) (x : Finset Nat), x ∈ K → x ∈ keep K t := by
  induction t with
  | nil => intro K x h; exact h
  | cons p t ih =>
    intro K x h
    obtain ⟨v, c⟩ := p
    apply ih
    split
    · exact h
    · exact List.mem_cons_of_mem _ h

theorem keep_covers (t : List (Nat × Finset Nat)) : ∀ (K : List (Finset Nat)) (v : Nat) (c : Finset Nat), (v, c) ∈ t →
    ∃ x ∈ keep K t, c ⊆ x := by
  induction t with
  | nil => intro K v c h; cases h
  | cons p t ih =>
    intro K v c h
    obtain ⟨w, d⟩ := p
    rcases List.mem_cons.mp h with h | h
    · cases h
      unfold keep
      by_cases he : ∃ x ∈ K, c ⊆ x
      · obtain ⟨x, hx, hs⟩ := he
        exact ⟨x, keep_mono t _ x (by rw [if_pos ⟨x, hx, hs⟩]; exact hx), hs⟩
      · exact ⟨c, keep_mono t _ c (by rw [if_neg he]; simp), Finset.Subset.refl _⟩
    · exact ih _ v c h

theorem keep_sub (t : List (Nat × Finset Nat)) : ∀ (K : List (Finset Nat)) (x : Finset Nat), x ∈ keep K t →
    x ∈ K ∨ ∃ v, (v, x) ∈ t := by
  induction t with
  | nil => intro K x h; exact Or.inl h
  | cons p t ih =>
    intro K x h
    obtain ⟨w, d⟩ := p
    unfold keep at h
    rcases ih _ x h with h | ⟨v, h⟩
    · split at h
      · exact Or.inl h
      · rcases List.mem_cons.mp h with rfl | h
        · exact Or.inr ⟨w, List.mem_cons_self ..⟩
        · exact Or.inl h
    · exact Or.inr ⟨v, List.mem_cons_of_mem _ h⟩

theorem keep_length (t : List (Nat × Finset Nat)) : ∀ (K : List (Finset Nat)), (keep K t).length ≤ K.length + t.length := by
  induction t with
  | nil => intro K; simp [keep]
  | cons p t ih =>
    intro K
    obtain ⟨w, d⟩ := p
    unfold keep
    refine le_trans (ih _) ?_
    split <;> simp <;> omega

theorem Elim.length {R : Finset Nat} {A : Nat → Nat → Prop} {t : List (Nat × Finset Nat)} (h : Elim R A t) : t.length = R.card := by
  induction h with
  | nil => rfl
  | cons hv hc ht ih =>
    rw [List.length_cons, ih, Finset.card_erase_of_mem hv]
    have := Finset.card_pos.mpr ⟨_, hv⟩
    omega

theorem Elim.subset {R : Finset Nat} {A : Nat → Nat → Prop} {t : List (Nat × Finset Nat)} (h : Elim R A t) :
    ∀ v c, (v, c) ∈ t → c ⊆ R ∧ v ∈ c := by
  induction h with
  | nil => intro v c h; cases h
  | @cons R A v c t hv hc ht ih =>
    intro w d hd
    rcases List.mem_cons.mp hd with hd | hd
    · cases hd
      refine ⟨?_, (hc _).mpr (Or.inl rfl)⟩
      intro u hu
      rcases (hc u).mp hu with rfl | hu
      · exact hv
      · exact hu.1
    · exact ⟨(ih w d hd).1.trans (Finset.erase_subset _ _), (ih w d hd).2⟩

/-- every complete set is inside a cluster -/
theorem Elim.complete {R : Finset Nat} {A : Nat → Nat → Prop} {t : List (Nat × Finset Nat)} (h : Elim R A t) :
    ∀ Q : Finset Nat, Q.Nonempty → Q ⊆ R → (∀ a ∈ Q, ∀ b ∈ Q, a ≠ b → A a b) → ∃ v c, (v, c) ∈ t ∧ Q ⊆ c := by
  induction h with
  | nil =>
    intro Q hne hs _
    obtain ⟨x, hx⟩ := hne
    have := hs hx
    simp at this
  | @cons R A v c t hv hc ht ih =>
    intro Q hne hs hcom
    by_cases hvQ : v ∈ Q
    · refine ⟨v, c, List.mem_cons_self .., ?_⟩
      intro u hu
      rw [hc]
      by_cases e : u = v
      · exact Or.inl e
      · exact Or.inr ⟨hs hu, hcom v hvQ u hu (fun e' => e e'.symm)⟩
    · obtain ⟨w, d, hd, hsd⟩ := ih Q hne (fun u hu => Finset.mem_erase.mpr ⟨by rintro rfl; exact hvQ hu, hs hu⟩)
        (fun a ha b hb hab => Or.inl (hcom a ha b hb hab))
      exact ⟨w, d, List.mem_cons_of_mem _ hd, hsd⟩

theorem Elim.antichain {R : Finset Nat} {A : Nat → Nat → Prop} {t : List (Nat × Finset Nat)} (h : Elim R A t) :
    ∀ K : List (Finset Nat), K.Pairwise (fun x y => ¬ x ⊆ y ∧ ¬ y ⊆ x) → (∀ x ∈ K, ¬ x ⊆ R) →
      (keep K t).Pairwise (fun x y => ¬ x ⊆ y ∧ ¬ y ⊆ x) := by
  induction h with
  | nil => intro K hK _; exact hK
  | @cons R A v c t hv hc ht ih =>
    intro K hK hR
    have hcR : c ⊆ R := by
      intro u hu
      rcases (hc u).mp hu with rfl | hu
      · exact hv
      · exact hu.1
    unfold keep
    have hR' : ∀ x ∈ K, ¬ x ⊆ R.erase v := fun x hx hs => hR x hx (hs.trans (Finset.erase_subset _ _))
    by_cases he : ∃ x ∈ K, c ⊆ x
    · rw [if_pos he]; exact ih K hK hR'
    · rw [if_neg he]
      apply ih
      · refine List.pairwise_cons.mpr ⟨?_, hK⟩
        intro x hx
        exact ⟨fun hs => he ⟨x, hx, hs⟩, fun hs => hR x hx (hs.trans hcR)⟩
      · intro x hx
        rcases List.mem_cons.mp hx with rfl | hx
        · intro hs
          have := hs ((hc v).mpr (Or.inl rfl))
          simp at this
        · exact hR' x hx

/-- The undirected graph made of a network: moralised, with interface edges. -/
def Linked (edges : List (Nat × Nat)) (oldOut out : Nat → Bool) (nodes : List Nat) (u v : Nat) : Prop :=
  u ≠ v ∧ ((u, v) ∈ edges ∨ (v, u) ∈ edges ∨ (∃ c ∈ nodes, (u, c) ∈ edges ∧ (v, c) ∈ edges) ∨
    (oldOut u = true ∧ oldOut v = true) ∨ (out u = true ∧ out v = true))

theorem prop_shuffle {P Q R S : Prop} : ((P ∨ Q ∧ R) ∨ Q ∧ S) ↔ (P ∨ Q ∧ (R ∨ S)) := by
  constructor
  · rintro ((h | ⟨h1, h2⟩) | ⟨h1, h2⟩)
    · exact Or.inl h
    · exact Or.inr ⟨h1, Or.inl h2⟩
    · exact Or.inr ⟨h1, Or.inr h2⟩
  · rintro (h | ⟨h1, h2 | h2⟩)
    · exact Or.inl (Or.inl h)
    · exact Or.inl (Or.inr ⟨h1, h2⟩)
    · exact Or.inr ⟨h1, h2⟩

open Classical in
/-- the undirected graph that is triangulated -/
theorem undirected_holds (oldOut out : Nat → Bool) {g : Graph} {n : Nat} {nodes : List Nat}
    {edges : List (Nat × Nat)} (h : Holds g n nodes edges) (hfull : nodes.length = n) (hirr : ∀ a, (a, a) ∉ edges) :
    ∃ gm gi gu edges', g.moralise = ok gm ∧ gm.addInterfaceEdges oldOut out = ok gi ∧ gi.makeUndirected = ok gu ∧ Holds gu n nodes edges' ∧
      ∀ u v, (u, v) ∈ edges' ↔ (u ∈ nodes ∧ v ∈ nodes) ∧ Linked edges oldOut out nodes u v := by
  obtain ⟨gm, a1, a2, a3⟩ := moralise_eq h.wf
  have hvars : gm.vars = nodes.map some := by rw [a2.vars, h.vars, hfull]; simp
  obtain ⟨gi, b1, b2, b3⟩ := addInterfaceEdges_eq (oldOut := oldOut) (out := out) a2.wf hvars
  obtain ⟨gu, c1, c2, c3⟩ := makeUndirected_eq b2.wf
  have hsame : Same g gu := ⟨c2.wf, c2.size.trans (b2.size.trans a2.size), c2.vars.trans (b2.vars.trans a2.vars),
    c2.top.trans (b2.top.trans a2.top), c2.minId.trans (b2.minId.trans a2.minId), c2.maxId.trans (b2.maxId.trans a2.maxId), c2.ind⟩
  have hsz := h.size
  have hgm : gm.size = n := a2.size.trans hsz
  have hgi : gi.size = n := b2.size.trans hgm
  obtain ⟨edges', hmem⟩ : ∃ edges' : List (Nat × Nat), ∀ u v, (u, v) ∈ edges' ↔
      (u ∈ nodes ∧ v ∈ nodes) ∧ Linked edges oldOut out nodes u v := by
    refine ⟨(nodes.product nodes).filter (fun p => Linked edges oldOut out nodes p.1 p.2), ?_⟩
    intro u v
    simp only [List.mem_filter, decide_eq_true_eq]
    rw [List.pair_mem_product]
  have hval0 : ∀ i j u v, nodes[i]? = some u → nodes[j]? = some v → (g.val i j = true ↔ (u, v) ∈ edges) := by
    intro i j u v hu hv
    have hi := (List.getElem?_eq_some_iff.mp hu).1
    have hj := (List.getElem?_eq_some_iff.mp hv).1
    rw [h.val i j (by omega) (by omega)]
    constructor
    · rintro ⟨u', v', hu', hv', he⟩
      rw [hu] at hu'; rw [hv] at hv'; cases hu'; cases hv'; exact he
    · intro he; exact ⟨u, v, hu, hv, he⟩
  have hval1 : ∀ i j u v, nodes[i]? = some u → nodes[j]? = some v → (gi.val i j = true ↔ (u, v) ∈ edges ∨
      (u ≠ v ∧ ((∃ c ∈ nodes, (u, c) ∈ edges ∧ (v, c) ∈ edges) ∨ (oldOut u = true ∧ oldOut v = true) ∨ (out u = true ∧ out v = true)))) := by
    intro i j u v hu hv
    have hi := (List.getElem?_eq_some_iff.mp hu).1
    have hj := (List.getElem?_eq_some_iff.mp hv).1
    have hij : i = j ↔ u = v := by
      constructor
      · rintro rfl; rw [hu] at hv; exact Option.some.inj hv
      · rintro rfl; exact (List.getElem?_inj hi h.nodup).mp (hu.trans hv.symm)
    rw [b3 i j (by omega) (by omega), a3 i j (by omega) (by omega), hval0 i j u v hu hv]
    have e1 : (∃ k, k < g.size ∧ g.val i k = true ∧ g.val j k = true) ↔ ∃ c ∈ nodes, (u, c) ∈ edges ∧ (v, c) ∈ edges := by
      constructor
      · rintro ⟨k, hk, h1, h2⟩
        have hk' : k < nodes.length := by omega
        have hc := List.getElem?_eq_getElem hk'
        exact ⟨nodes[k], List.getElem_mem hk', (hval0 i k u _ hu hc).mp h1, (hval0 j k v _ hv hc).mp h2⟩
      · rintro ⟨c, hc, h1, h2⟩
        obtain ⟨k, hk⟩ := List.getElem?_of_mem hc
        have := (List.getElem?_eq_some_iff.mp hk).1
        exact ⟨k, by omega, (hval0 i k u _ hu hk).mpr h1, (hval0 j k v _ hv hk).mpr h2⟩
    have e2 : (∃ u' v', nodes[i]? = some u' ∧ nodes[j]? = some v' ∧ Ifc oldOut out u' v' = true) ↔
        ((oldOut u = true ∧ oldOut v = true) ∨ (out u = true ∧ out v = true)) := by
      constructor
      · rintro ⟨u', v', hu', hv', hI⟩
        rw [hu] at hu'; rw [hv] at hv'; cases hu'; cases hv'
        simpa [Ifc] using hI
      · intro hI; exact ⟨u, v, hu, hv, by simpa [Ifc] using hI⟩
    rw [e1, e2, ne_eq, hij]
    exact prop_shuffle
  have hH : Holds gu n nodes edges' := by
    refine h.same hsame ?_
    intro i j hi hj
    have hi' : i < nodes.length := by omega
    have hj' : j < nodes.length := by omega
    have hu := List.getElem?_eq_getElem hi'
    have hv := List.getElem?_eq_getElem hj'
    rw [c3 i j (by omega) (by omega), Bool.or_eq_true, hval1 i j _ _ hu hv, hval1 j i _ _ hv hu]
    have hself : ∀ a b, (a, b) ∈ edges → a ≠ b := by rintro a b he rfl; exact hirr a he
    constructor
    · intro hh
      refine ⟨nodes[i], nodes[j], hu, hv, (hmem _ _).mpr ⟨⟨List.getElem_mem hi', List.getElem_mem hj'⟩, ?_⟩⟩
      unfold Linked
      rcases hh with (h1 | h1) | (h1 | ⟨h0, ⟨c, hc, h1, h2⟩ | h1 | h1⟩)
      · exact ⟨hself _ _ h1, Or.inl h1⟩
      · exact ⟨h1.1, Or.inr (Or.inr h1.2)⟩
      · exact ⟨fun e => hself _ _ h1 e.symm, Or.inr (Or.inl h1)⟩
      · exact ⟨fun e => h0 e.symm, Or.inr (Or.inr (Or.inl ⟨c, hc, h2, h1⟩))⟩
      · exact ⟨fun e => h0 e.symm, Or.inr (Or.inr (Or.inr (Or.inl h1.symm)))⟩
      · exact ⟨fun e => h0 e.symm, Or.inr (Or.inr (Or.inr (Or.inr h1.symm)))⟩
    · rintro ⟨u, v, hu', hv', he⟩
      rw [hu] at hu'; rw [hv] at hv'; cases hu'; cases hv'
      obtain ⟨h0, h1 | h1 | h1⟩ := ((hmem _ _).mp he).2
      · exact Or.inl (Or.inl h1)
      · exact Or.inr (Or.inl h1)
      · exact Or.inl (Or.inr ⟨h0, h1⟩)
  exact ⟨gm, gi, gu, edges', a1, b1, c1, hH, hmem⟩

theorem linked_symm {edges : List (Nat × Nat)} {oldOut out : Nat → Bool} {nodes : List Nat} {a b : Nat} (h : Linked edges oldOut out nodes a b) :
    Linked edges oldOut out nodes b a := by
  obtain ⟨h0, h1⟩ := h
  refine ⟨fun e => h0 e.symm, ?_⟩
  rcases h1 with h1 | h1 | ⟨c, hc, h1, h2⟩ | h1 | h1
  · exact Or.inr (Or.inl h1)
  · exact Or.inl h1
  · exact Or.inr (Or.inr (Or.inl ⟨c, hc, h2, h1⟩))
  · exact Or.inr (Or.inr (Or.inr (Or.inl h1.symm)))
  · exact Or.inr (Or.inr (Or.inr (Or.inr h1.symm)))

theorem graphToCliques_eq (ptr : Nat) (pk sk : List Nat → Int) (oldOut out : Nat → Bool) {g : Graph} {n : Nat} {nodes : List Nat}
    {edges : List (Nat × Nat)} (h : Holds g n nodes edges) (hfull : nodes.length = n) (hne : nodes ≠ []) (hirr : ∀ a, (a, a) ∉ edges) :
    ∃ seq A, Elim nodes.toFinset A seq ∧ (∀ u v, u ∈ nodes → v ∈ nodes → (A u v ↔ Linked edges oldOut out nodes u v)) ∧
      graphToCliques ptr pk sk oldOut out g = ok ((keep [] seq).reverse.map (fun c => c.sort (· ≤ ·))) := by
  obtain ⟨gm, gi, gu, edges', a1, b1, c1, hH, hmem⟩ := undirected_holds oldOut out h hfull hirr
  obtain ⟨seq, s1, s2⟩ := triangulate_eq ptr pk sk hH hfull hne
    (by
      intro a b ha hb hab
      rw [hmem] at hab ⊢
      exact ⟨⟨hb, ha⟩, linked_symm hab.2⟩)
    (by
      intro a ha
      rw [hmem] at ha
      exact ha.2.1 rfl)
  refine ⟨seq, _, s1, ?_, ?_⟩
  · intro u v hu hv
    rw [hmem]
    exact and_iff_right ⟨hu, hv⟩
  · unfold graphToCliques
    rw [a1, ok_bind, b1, ok_bind, c1, ok_bind, s2]

end Nip
