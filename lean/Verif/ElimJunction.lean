import Verif.ElimLemmas
import Verif.Comp

/-! # The kept clusters of an elimination sequence have a junction forest -/

namespace Nip

/-- `N` are the maximal clusters of the sequence `t`. -/
structure Maximal (t : List (Nat × Finset Nat)) (N : Finset VSet) : Prop where
  sub : ∀ x ∈ N, ∃ v, (v, x) ∈ t
  covers : ∀ v c, (v, c) ∈ t → ∃ x ∈ N, c ⊆ x
  anti : ∀ x ∈ N, ∀ y ∈ N, x ⊆ y → x = y

theorem Maximal.unique {t : List (Nat × Finset Nat)} {N M : Finset VSet} (hN : Maximal t N) (hM : Maximal t M) : N = M := by
  have key : ∀ {N M : Finset VSet}, Maximal t N → Maximal t M → N ⊆ M := by
    intro N M hN hM x hx
    obtain ⟨v, hv⟩ := hN.sub x hx
    obtain ⟨y, hy, hxy⟩ := hM.covers v x hv
    obtain ⟨w, hw⟩ := hM.sub y hy
    obtain ⟨z, hz, hyz⟩ := hN.covers w y hw
    have := hN.anti x hx z hz (hxy.trans hyz)
    subst this
    rw [Finset.Subset.antisymm hxy hyz]; exact hy
  exact Finset.Subset.antisymm (key hN hM) (key hM hN)

theorem edgesAt_cons (v : Nat) (e : VSet × VSet) (L : List (VSet × VSet)) :
    (edgesAt v (e :: L)).length = (if v ∈ e.1 ∧ v ∈ e.2 then 1 else 0) + (edgesAt v L).length := by
  unfold edgesAt
  rw [List.filter_cons]
  by_cases hv : v ∈ e.1 ∧ v ∈ e.2
  · simp [hv]; omega
  · rw [if_neg (by simpa using hv), if_neg (by simpa using hv)]; omega

theorem elim_junction {R : Finset Nat} {A : Nat → Nat → Prop} {t : List (Nat × Finset Nat)} (h : Elim R A t) :
    ∃ N : Finset VSet, Maximal t N ∧ ∃ J : List (VSet × VSet), (∀ e ∈ J, e.1 ∈ N ∧ e.2 ∈ N) ∧ IsForest J ∧
      ∀ v, (N.filter (v ∈ ·)).card ≤ (edgesAt v J).length + 1 := by
  induction h with
  | nil =>
    refine ⟨∅, ⟨by simp, by simp, by simp⟩, [], by simp, trivial, by simp⟩
  | @cons R A v c t hv hc ht ih =>
    obtain ⟨N, hN, J, hJ, fJ, cJ⟩ := ih
    have hsub := ht.subset
    have hvc : v ∈ c := (hc v).mpr (Or.inl rfl)
    have hvN : ∀ x ∈ N, v ∉ x := by
      intro x hx hvx
      obtain ⟨w, hw⟩ := hN.sub x hx
      have := (hsub w x hw).1 hvx
      simp at this
    have hneN : ∀ x ∈ N, x.Nonempty := by
      intro x hx
      obtain ⟨w, hw⟩ := hN.sub x hx
      exact ⟨w, (hsub w x hw).2⟩
    have hcN : c ∉ N := fun h => hvN c h hvc
    -- sets inside c
    have hin : ∀ x ∈ N, x ⊆ c → x ⊆ c.erase v := fun x hx hs u hu =>
      Finset.mem_erase.mpr ⟨by rintro rfl; exact hvN x hx hu, hs hu⟩
    have hfil : ∀ (S : Finset VSet) (u : Nat), c ∉ S → ((insert c S).filter (u ∈ ·)).card = (if u ∈ c then 1 else 0) + (S.filter (u ∈ ·)).card := by
      intro S u hcS
      rw [Finset.filter_insert]
      split
      · rw [Finset.card_insert_of_notMem (by simp [hcS])]; omega
      · omega
    have hfv : N.filter (v ∈ ·) = ∅ := by
      apply Finset.filter_eq_empty_iff.mpr
      intro x hx; exact hvN x hx
    rcases Finset.eq_empty_or_nonempty (c.erase v) with he | hne
    · -- an isolated variable
      have hnotin : ∀ x ∈ N, ¬ x ⊆ c := fun x hx hs => by
        have := hin x hx hs
        rw [he] at this
        exact (hneN x hx).ne_empty (Finset.subset_empty.mp this)
      refine ⟨insert c N, ⟨?_, ?_, ?_⟩, J, ?_, fJ, ?_⟩
      · intro x hx
        rcases Finset.mem_insert.mp hx with rfl | hx
        · exact ⟨v, List.mem_cons_self ..⟩
        · obtain ⟨w, hw⟩ := hN.sub x hx; exact ⟨w, List.mem_cons_of_mem _ hw⟩
      · intro w d hd
        rcases List.mem_cons.mp hd with hd | hd
        · cases hd; exact ⟨c, Finset.mem_insert_self .., Finset.Subset.refl _⟩
        · obtain ⟨x, hx, hs⟩ := hN.covers w d hd; exact ⟨x, Finset.mem_insert_of_mem hx, hs⟩
      · intro x hx y hy hs
        rcases Finset.mem_insert.mp hx with rfl | hx
        · rcases Finset.mem_insert.mp hy with rfl | hy
          · rfl
          · exact absurd (hs hvc) (hvN y hy)
        · rcases Finset.mem_insert.mp hy with e | hy
          · exact absurd (e ▸ hs) (hnotin x hx)
          · exact hN.anti x hx y hy hs
      · intro e he; exact ⟨Finset.mem_insert_of_mem (hJ e he).1, Finset.mem_insert_of_mem (hJ e he).2⟩
      · intro u
        rw [hfil N u hcN]
        split
        · rename_i hu
          have : u = v := by
            by_contra hne
            have : u ∈ c.erase v := Finset.mem_erase.mpr ⟨hne, hu⟩
            rw [he] at this; simp at this
          subst this
          rw [hfv]; simp
        · have := cJ u; omega
    · obtain ⟨w, d, hd, hsd⟩ := ht.complete (c.erase v) hne
        (by
          intro u hu
          obtain ⟨h1, h2⟩ := Finset.mem_erase.mp hu
          rcases (hc u).mp h2 with rfl | h3
          · exact absurd rfl h1
          · exact Finset.mem_erase.mpr ⟨h1, h3.1⟩)
        (by
          intro a ha b hb hab
          right
          exact ⟨hab, (Finset.mem_erase.mp ha).2, (Finset.mem_erase.mp hb).2⟩)
      obtain ⟨M, hM, hsM⟩ := hN.covers w d hd
      have hcM : c.erase v ⊆ M := hsd.trans hsM
      have honly : ∀ x ∈ N, x ⊆ c → x = M := fun x hx hs => hN.anti x hx M hM ((hin x hx hs).trans hcM)
      by_cases heq : M ⊆ c
      · -- M is replaced by c
        have hMc : M = c.erase v := Finset.Subset.antisymm (hin M hM heq) hcM
        let f : VSet → VSet := fun x => if x = M then c else x
        have hf : ∀ x ∈ N, ∀ y ∈ N, f x = f y → x = y := by
          intro x hx y hy e
          simp only [f] at e
          split at e
          · split at e
            · rename_i h1 h2; rw [h1, h2]
            · exact absurd (e ▸ hy) hcN
          · split at e
            · exact absurd (e ▸ hx) hcN
            · exact e
        have hfmem : ∀ x ∈ N, f x ∈ insert c (N.erase M) := by
          intro x hx
          simp only [f]
          split
          · exact Finset.mem_insert_self ..
          · rename_i hne; exact Finset.mem_insert_of_mem (Finset.mem_erase.mpr ⟨hne, hx⟩)
        have hfu : ∀ u x, x ∈ N → u ≠ v → (u ∈ f x ↔ u ∈ x) := by
          intro u x hx huv
          simp only [f]
          split
          · rename_i h1; rw [h1, hMc, Finset.mem_erase]; exact ⟨fun h => ⟨huv, h⟩, fun h => h.2⟩
          · exact Iff.rfl
        refine ⟨insert c (N.erase M), ⟨?_, ?_, ?_⟩, J.map (fun e => (f e.1, f e.2)), ?_, forest_map f J N hJ hf fJ, ?_⟩
        · intro x hx
          rcases Finset.mem_insert.mp hx with rfl | hx
          · exact ⟨v, List.mem_cons_self ..⟩
          · obtain ⟨w, hw⟩ := hN.sub x (Finset.mem_erase.mp hx).2; exact ⟨w, List.mem_cons_of_mem _ hw⟩
        · intro w d hd
          rcases List.mem_cons.mp hd with hd | hd
          · cases hd; exact ⟨c, Finset.mem_insert_self .., Finset.Subset.refl _⟩
          · obtain ⟨x, hx, hs⟩ := hN.covers w d hd
            refine ⟨f x, hfmem x hx, ?_⟩
            simp only [f]
            split
            · rename_i h1; exact (h1 ▸ hs).trans heq
            · exact hs
        · intro x hx y hy hs
          rcases Finset.mem_insert.mp hx with rfl | hx
          · rcases Finset.mem_insert.mp hy with rfl | hy
            · rfl
            · exact absurd (hs hvc) (hvN y (Finset.mem_erase.mp hy).2)
          · obtain ⟨h1, h2⟩ := Finset.mem_erase.mp hx
            rcases Finset.mem_insert.mp hy with rfl | hy
            · exact absurd (honly x h2 hs) h1
            · exact hN.anti x h2 y (Finset.mem_erase.mp hy).2 hs
        · intro e he
          obtain ⟨e', he', rfl⟩ := List.mem_map.mp he
          exact ⟨hfmem _ (hJ e' he').1, hfmem _ (hJ e' he').2⟩
        · intro u
          have hcE : c ∉ N.erase M := fun h => hcN (Finset.mem_erase.mp h).2
          rw [hfil _ u hcE]
          by_cases huv : u = v
          · subst huv
            have : (N.erase M).filter (u ∈ ·) = ∅ := by
              apply Finset.filter_eq_empty_iff.mpr
              intro x hx; exact hvN x (Finset.mem_erase.mp hx).2
            rw [this, if_pos hvc]; simp
          · have e1 : (edgesAt u (J.map (fun e => (f e.1, f e.2)))).length = (edgesAt u J).length := by
              clear cJ fJ
              induction J with
              | nil => rfl
              | cons e J ihJ =>
                have hJe := hJ e (List.mem_cons_self ..)
                rw [List.map_cons, edgesAt_cons, edgesAt_cons, ihJ (fun e he => hJ e (List.mem_cons_of_mem _ he))]
                simp only [hfu u _ hJe.1 huv, hfu u _ hJe.2 huv]
            rw [e1]
            have h1 := cJ u
            have e2 : N.filter (u ∈ ·) = (insert M (N.erase M)).filter (u ∈ ·) := by rw [Finset.insert_erase hM]
            rw [e2, Finset.filter_insert] at h1
            have hiff : u ∈ c ↔ u ∈ M := by rw [hMc, Finset.mem_erase]; exact ⟨fun h => ⟨huv, h⟩, fun h => h.2⟩
            by_cases huM : u ∈ M
            · rw [if_pos huM, Finset.card_insert_of_notMem (by simp)] at h1
              rw [if_pos (hiff.mpr huM)]; omega
            · rw [if_neg huM] at h1
              rw [if_neg (fun h => huM (hiff.mp h))]; omega
      · have hnotin : ∀ x ∈ N, ¬ x ⊆ c := fun x hx hs => heq (honly x hx hs ▸ hs)
        refine ⟨insert c N, ⟨?_, ?_, ?_⟩, (c, M) :: J, ?_, ⟨?_, fJ⟩, ?_⟩
        · intro x hx
          rcases Finset.mem_insert.mp hx with rfl | hx
          · exact ⟨v, List.mem_cons_self ..⟩
          · obtain ⟨w, hw⟩ := hN.sub x hx; exact ⟨w, List.mem_cons_of_mem _ hw⟩
        · intro w d hd
          rcases List.mem_cons.mp hd with hd | hd
          · cases hd; exact ⟨c, Finset.mem_insert_self .., Finset.Subset.refl _⟩
          · obtain ⟨x, hx, hs⟩ := hN.covers w d hd; exact ⟨x, Finset.mem_insert_of_mem hx, hs⟩
        · intro x hx y hy hs
          rcases Finset.mem_insert.mp hx with rfl | hx
          · rcases Finset.mem_insert.mp hy with rfl | hy
            · rfl
            · exact absurd (hs hvc) (hvN y hy)
          · rcases Finset.mem_insert.mp hy with e | hy
            · exact absurd (e ▸ hs) (hnotin x hx)
            · exact hN.anti x hx y hy hs
        · intro e he
          rcases List.mem_cons.mp he with rfl | he
          · exact ⟨Finset.mem_insert_self .., Finset.mem_insert_of_mem hM⟩
          · exact ⟨Finset.mem_insert_of_mem (hJ e he).1, Finset.mem_insert_of_mem (hJ e he).2⟩
        · rw [comp_not_mem J N hJ c hcN]
          intro e
          exact hcN (e ▸ comp_mem J N hJ M hM)
        · intro u
          rw [hfil N u hcN, edgesAt_cons]
          simp only
          by_cases huc : u ∈ c
          · rw [if_pos huc]
            by_cases huv : u = v
            · subst huv; rw [hfv]; simp
            · rw [if_pos ⟨huc, hcM (Finset.mem_erase.mpr ⟨huv, huc⟩)⟩]
              have := cJ u; omega
          · rw [if_neg huc]
            have := cJ u; omega

theorem keep_maximal {R : Finset Nat} {A : Nat → Nat → Prop} {t : List (Nat × Finset Nat)} (h : Elim R A t) :
    Maximal t (keep [] t).toFinset := by
  refine ⟨?_, ?_, ?_⟩
  · intro x hx
    rcases keep_sub t [] x (List.mem_toFinset.mp hx) with h | h
    · cases h
    · exact h
  · intro v c hc
    obtain ⟨x, hx, hs⟩ := keep_covers t [] v c hc
    exact ⟨x, List.mem_toFinset.mpr hx, hs⟩
  · intro x hx y hy hs
    have hp := h.antichain [] List.Pairwise.nil (by simp)
    by_contra hne
    haveI hsym : Std.Symm (fun x y : VSet => ¬ x ⊆ y ∧ ¬ y ⊆ x) := ⟨fun _ _ h => ⟨h.2, h.1⟩⟩
    exact (hp.forall (List.mem_toFinset.mp hx) (List.mem_toFinset.mp hy) hne).1 hs

/-- The kept clusters: a greedy spanning forest of them keeps, for each variable, the clusters that contain it together. -/
theorem keep_junction {R : Finset Nat} {A : Nat → Nat → Prop} {t : List (Nat × Finset Nat)} (h : Elim R A t)
    (L : List (VSet × VSet)) (hL : ∀ e ∈ L, e.1 ∈ keep [] t ∧ e.2 ∈ keep [] t) (fL : IsForest L) (hg : Greedy (keep [] t).toFinset L) :
    ∀ v, ∀ x ∈ keep [] t, ∀ y ∈ keep [] t, v ∈ x → v ∈ y → comp (edgesAt v L) x = comp (edgesAt v L) y := by
  obtain ⟨N, hN, J, hJ, fJ, cJ⟩ := elim_junction h
  have := hN.unique (keep_maximal h)
  subst this
  intro v x hx y hy
  exact greedy_junction _ L J (by simpa using hL) hJ fL fJ hg cJ v x (List.mem_toFinset.mpr hx) y (List.mem_toFinset.mpr hy)

end Nip
