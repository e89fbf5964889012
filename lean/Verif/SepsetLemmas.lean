import Verif.Forest
import Verif.Comp
import Verif.HeapLemmas
import Verif.TriangulateLemmas

/-! # Lemmas about connecting the cliques -/

namespace Nip

open Res

set_option linter.unusedSectionVars false

variable {K : Type} [Zero K] [One K] [Add K] [_root_.Sub K] [Mul K] [Div K] [LinearOrder K]

theorem takeVars_eq (xs : List Nat) : takeVars (xs.map some) xs.length = ok xs := by
  unfold takeVars
  obtain ⟨out, h1, h2⟩ := loop_inv (n := xs.length) (f := fun i (out : List Nat) => do
      let v ← rd (xs.map some) i
      match v with
      | some v => ok (out ++ [v])
      | none => ub) (s := []) (fun i out => out = xs.take i) (by simp)
    (by
      rintro i hi out rfl
      refine ⟨xs.take (i + 1), ?_, rfl⟩
      rw [rd_lt (by simpa using hi), ok_bind]
      simp only [List.getElem_map]
      rw [List.take_succ_eq_append_getElem hi])
  refine Eq.trans h1 ?_
  rw [h2, List.take_length]

/-- the separator made between cliques `i` and `j` -/
def mkSep (card : Nat → Nat) (vars : Nat → List Nat) (e : Nat × Nat) : Sepset K :=
  let vs := (vars e.1).filter (· ∈ vars e.2)
  { vars := vs, old := ⟨vs.map card, List.replicate (vs.map card).prod 1⟩, new := ⟨vs.map card, List.replicate (vs.map card).prod 1⟩,
    first := e.1, second := e.2 }

theorem make_eq (card : Nat → Nat) (vars : Nat → List Nat) (i j : Nat) :
    Sepset.make (K := K) card i j (vars i) (vars j) = ok (some (mkSep card vars (i, j))) := by
  unfold Sepset.make
  rw [variableIsect_eq, ok_bind]
  simp only [takeVars_eq, ok_bind]
  have h := Potential.new_none (K := K) (card := ((vars i).filter (· ∈ vars j)).map card)
  rw [List.length_map] at h
  rw [h]
  rfl

theorem insert_room' {α : Type} {ptr : Nat} {pk sk : α → Int} {h : Heap α} (hroom : h.items.length < h.allocated)
    (hb : h.bytes = h.allocated * ptr) (c : α) :
    Heap.insert ptr pk sk h c = ok { h with items := h.items ++ [⟨c, pk c, sk c⟩], heapified := false } := by
  unfold Heap.insert
  rw [if_neg (by omega)]
  simp only [ok_bind]
  unfold Heap.slot
  rw [if_pos]
  · rfl
  · rw [hb]; exact Nat.mul_le_mul_right _ hroom

/-- number of candidate pairs in the first rows -/
def rowsLen (n : Nat) : Nat → Nat
  | 0 => 0
  | i + 1 => rowsLen n i + (n - (i + 1))

theorem rowsLen_mono (n : Nat) {i j : Nat} (h : i ≤ j) : rowsLen n i ≤ rowsLen n j := by
  induction j with
  | zero => have : i = 0 := by omega
            subst this; exact Nat.le_refl _
  | succ j ih =>
    by_cases e : i = j + 1
    · subst e; exact Nat.le_refl _
    · have := ih (by omega)
      simp only [rowsLen]; omega

theorem rowsLen_two (n i : Nat) (h : i + 1 ≤ n) : 2 * rowsLen n i + i * (i + 1) = 2 * (n * i) := by
  induction i with
  | zero => simp [rowsLen]
  | succ i ih =>
    have := ih (by omega)
    simp only [rowsLen]
    have e1 : (i + 1) * (i + 1 + 1) = i * (i + 1) + 2 * i + 2 := by
      rw [Nat.add_mul, Nat.mul_add i, Nat.one_mul]; omega
    have e2 : n * (i + 1) = n * i + n := by rw [Nat.mul_add, Nat.mul_one]
    omega

theorem rowsLen_full (n : Nat) (h : 1 ≤ n) : rowsLen n (n - 1) = n * (n - 1) / 2 := by
  have h1 := rowsLen_two n (n - 1) (by omega)
  have e : (n - 1) * (n - 1 + 1) = n * (n - 1) := by rw [Nat.sub_add_cancel h, Nat.mul_comm]
  rw [e] at h1
  omega

/-- the items of a heap of candidate separators -/
structure Cand (card : Nat → Nat) (vars : Nat → List Nat) (n : Nat) (x : HeapItem (Sepset K)) : Prop where
  eq : ∃ i j, i < j ∧ j < n ∧ x.content = mkSep card vars (i, j) ∧ x.primary = - (((vars i).filter (· ∈ vars j)).length : Int)
  sec : x.secondary = 0

theorem buildSepsetHeap_eq (ptr : Nat) (card : Nat → Nat) (t : JTree K) (vars : Nat → List Nat)
    (hv : ∀ i (h : i < t.cliques.length), t.cliques[i].vars = vars i) (hn : 2 ≤ t.cliques.length) :
    ∃ h, t.buildSepsetHeap ptr card = ok (some h) ∧ Heap.Ord h.items 0 none ∧ (∀ x ∈ h.items, Cand card vars t.cliques.length x) ∧
      (∀ i j, i < j → j < t.cliques.length → ∃ x ∈ h.items, x.content = mkSep card vars (i, j)) ∧
      h.items.length = rowsLen t.cliques.length (t.cliques.length - 1) := by
  obtain ⟨n, hnn⟩ : ∃ n, n = t.cliques.length := ⟨_, rfl⟩
  unfold JTree.buildSepsetHeap
  rw [← hnn] at hn ⊢
  have hfull := rowsLen_full n (by omega)
  have hpos : 0 < rowsLen n (n - 1) := by
    have := rowsLen_mono n (show 1 ≤ n - 1 by omega)
    simp only [rowsLen] at this; omega
  have hnew : Heap.new ptr ((n * (n - 1) / 2 : Nat) : Int) =
      some (⟨[], rowsLen n (n - 1), rowsLen n (n - 1) * ptr, false, []⟩ : Heap (Sepset K)) := by
    unfold Heap.new
    rw [← hfull, if_neg (by omega)]
    simp
  simp only [hnew]
  have hinner : ∀ i, i < n - 1 → ∀ (h : Heap (Sepset K)), h.items.length = rowsLen n i → h.allocated = rowsLen n (n - 1) →
      h.bytes = rowsLen n (n - 1) * ptr → (∀ x ∈ h.items, Cand card vars n x) →
      (h.items.length = 0 → h.heapified = false) →
      ∃ h', loop (n - (i + 1)) (fun j' h => do
        let j := i + 1 + j'
        let nca ← rd t.cliques i
        let ncb ← rd t.cliques j
        let s ← Sepset.make card i j nca.vars ncb.vars
        match s with
        | none => ub
        | some s => Heap.insert ptr sepsetPrimaryCost sepsetSecondaryCost h s) h = ok h' ∧
        h'.items.length = rowsLen n (i + 1) ∧ h'.allocated = rowsLen n (n - 1) ∧ h'.bytes = rowsLen n (n - 1) * ptr ∧
        h'.heapified = false ∧ (∀ x ∈ h'.items, Cand card vars n x) ∧ (∀ x ∈ h.items, x ∈ h'.items) ∧
        ∀ j, i < j → j < n → ∃ x ∈ h'.items, x.content = mkSep card vars (i, j) := by
    intro i hi h hlen hall hby hc hfl
    obtain ⟨h', r1, r2, r3, r4, r5, r6, r7, r8⟩ := loop_inv (n := n - (i + 1)) (f := fun j' h => do
        let j := i + 1 + j'
        let nca ← rd t.cliques i
        let ncb ← rd t.cliques j
        let s ← Sepset.make (K := K) card i j nca.vars ncb.vars
        match s with
        | none => ub
        | some s => Heap.insert ptr sepsetPrimaryCost sepsetSecondaryCost h s) (s := h)
      (fun j' h' => h'.items.length = rowsLen n i + j' ∧ h'.allocated = rowsLen n (n - 1) ∧ h'.bytes = rowsLen n (n - 1) * ptr ∧
        (0 < j' → h'.heapified = false) ∧ (∀ x ∈ h'.items, Cand card vars n x) ∧ (∀ x ∈ h.items, x ∈ h'.items) ∧
        ∀ j, i < j → j < i + 1 + j' → ∃ x ∈ h'.items, x.content = mkSep card vars (i, j))
      ⟨by omega, hall, hby, by omega, hc, fun x hx => hx, by intro j h1 h2; omega⟩
      (by
        rintro j' hj' h1 ⟨a1, a2, a3, a4, a5, a6, a7⟩
        have hmono := rowsLen_mono n (show i + 1 ≤ n - 1 by omega)
        simp only [rowsLen] at hmono
        simp only
        rw [rd_lt (show i < t.cliques.length by omega), ok_bind, rd_lt (show i + 1 + j' < t.cliques.length by omega), ok_bind,
          hv i (by omega), hv (i + 1 + j') (by omega), make_eq, ok_bind]
        simp only
        rw [insert_room' (by omega) (by rw [a3, a2])]
        refine ⟨_, rfl, by simp [a1]; omega, a2, a3, fun _ => rfl, ?_, ?_, ?_⟩
        · intro x hx
          rcases List.mem_append.mp hx with hx | hx
          · exact a5 x hx
          · rw [List.mem_singleton.mp hx]
            exact ⟨⟨i, i + 1 + j', by omega, by omega, rfl, by simp [sepsetPrimaryCost, mkSep, Potential.dim]⟩, rfl⟩
        · intro x hx; exact List.mem_append_left _ (a6 x hx)
        · intro j h1 h2
          by_cases e : j = i + 1 + j'
          · subst e; exact ⟨_, List.mem_append_right _ (List.mem_singleton_self _), rfl⟩
          · obtain ⟨x, hx, hxe⟩ := a7 j h1 (by omega)
            exact ⟨x, List.mem_append_left _ hx, hxe⟩)
    refine ⟨h', r1, by simp only [rowsLen]; exact r2, r3, r4, r5 (by omega), r6, r7, ?_⟩
    intro j h1 h2
    exact r8 j h1 (by omega)
  obtain ⟨h1, r1, r2, r3, r4, r5, r6, r7⟩ := loop_inv (n := n - 1) (f := fun i h =>
      loop (n - (i + 1)) (fun j' h => do
        let j := i + 1 + j'
        let nca ← rd t.cliques i
        let ncb ← rd t.cliques j
        let s ← Sepset.make (K := K) card i j nca.vars ncb.vars
        match s with
        | none => ub
        | some s => Heap.insert ptr sepsetPrimaryCost sepsetSecondaryCost h s) h)
    (s := (⟨[], rowsLen n (n - 1), rowsLen n (n - 1) * ptr, false, []⟩ : Heap (Sepset K)))
    (fun i h => h.items.length = rowsLen n i ∧ h.allocated = rowsLen n (n - 1) ∧ h.bytes = rowsLen n (n - 1) * ptr ∧
      h.heapified = false ∧ (∀ x ∈ h.items, Cand card vars n x) ∧
      ∀ i' j, i' < i → i' < j → j < n → ∃ x ∈ h.items, x.content = mkSep card vars (i', j))
    ⟨rfl, rfl, rfl, rfl, by simp, by intro i' j h; omega⟩
    (by
      rintro i hi h ⟨a1, a2, a3, a4, a5, a6⟩
      obtain ⟨h', b1, b2, b3, b4, b5, b6, b7, b8⟩ := hinner i hi h a1 a2 a3 a5 (fun _ => a4)
      refine ⟨h', b1, b2, b3, b4, b5, b6, ?_⟩
      intro i' j h1 h2 h3
      by_cases e : i' = i
      · subst e; exact b8 j h2 h3
      · obtain ⟨x, hx, hxe⟩ := a6 i' j (by omega) h2 h3
        exact ⟨x, b7 x hx, hxe⟩)
  obtain ⟨h2, c1, c2, c3, _⟩ := Heap.build_ord h1 r5
  refine ⟨h2, ?_, c3, fun x hx => r6 x (c2.mem_iff.mp hx), ?_, by rw [c2.length_eq, r2]⟩
  · refine Eq.trans (congrArg (fun r => Res.bind r (fun (h : Heap (Sepset K)) => do
      let h ← h.build
      ok (some h))) r1) ?_
    simp only [ok_bind', c1, ok_bind]
  · intro i j hij hj
    obtain ⟨x, hx, hxe⟩ := r7 i j (by omega) hij hj
    exact ⟨x, c2.mem_iff.mpr hx, hxe⟩

namespace JTree

theorem confirm_eq (t : JTree K) (s : Sepset K) (h1 : s.first < t.cliques.length) (h2 : s.second < t.cliques.length)
    (hne : s.first ≠ s.second) : ∃ t', t.confirm s = ok t' ∧ t'.cliques.length = t.cliques.length ∧
      (∀ c, t'.adj c = if c = s.first ∨ c = s.second then t.sepsets.length :: t.adj c else t.adj c) ∧
      t'.sepsets = t.sepsets ++ [s] ∧
      ∀ c : Nat, (t'.cliques[c]?).map (fun cl => (cl.vars, cl.p, cl.orig)) = (t.cliques[c]?).map (fun cl => (cl.vars, cl.p, cl.orig)) := by
  unfold confirm
  rw [rd_lt h1, ok_bind, wr_lt h1, ok_bind, rd_lt (by simpa using h2), ok_bind, wr_lt (by simpa using h2), ok_bind]
  refine ⟨_, rfl, by simp, ?_, rfl, ?_⟩
  · intro c
    unfold adj
    simp only
    rw [List.getElem?_set, List.getElem?_set, List.getElem_set]
    by_cases e2 : s.second = c
    · subst e2
      simp only [if_true, List.length_set, h2, or_true]
      rw [if_neg hne, List.getElem?_eq_getElem h2]
    · rw [if_neg e2]
      by_cases e1 : s.first = c
      · subst e1
        simp only [if_true, h1, true_or]
        rw [List.getElem?_eq_getElem h1]
      · rw [if_neg e1, if_neg (by rintro (h | h); exact e1 h.symm; exact e2 h.symm)]
  · intro c
    simp only
    rw [List.getElem?_set, List.getElem?_set, List.getElem_set]
    by_cases e2 : s.second = c
    · subst e2
      simp only [if_true, List.length_set, h2]
      rw [if_neg hne, List.getElem?_eq_getElem h2]; rfl
    · rw [if_neg e2]
      by_cases e1 : s.first = c
      · subst e1
        simp only [if_true, h1]
        rw [List.getElem?_eq_getElem h1]; rfl
      · rw [if_neg e1]

/-- the forest built so far: `L` are the pairs of cliques joined, latest first -/
structure KInv (t : JTree K) (L : List (Nat × Nat)) : Prop where
  roots : ∀ r, r < t.cliques.length → ∃ F, Sub t none r F ∧ ∀ x, x < t.cliques.length → (x ∈ r :: F.nodes ↔ comp L x = comp L r)
  ends : t.sepsets.map (fun s => (s.first, s.second)) = L.reverse
  forest : IsForest L
  range : ∀ e ∈ L, e.1 < t.cliques.length ∧ e.2 < t.cliques.length

theorem KInv.shape {t t' : JTree K} {L : List (Nat × Nat)} (h : KInv t L) (hs : t'.bare = t.bare) : KInv t' L := by
  have hsh := shape_of_bare hs
  have hsep : t'.sepsets = t.sepsets := by
    have := congrArg JTree.sepsets hs
    exact this
  refine ⟨?_, by rw [hsep]; exact h.ends, h.forest, by rw [hsh.len]; exact h.range⟩
  intro r hr
  rw [hsh.len] at hr ⊢
  obtain ⟨F, hF, hx⟩ := h.roots r hr
  exact ⟨F, hF.shape hsh, hx⟩

/-- a tree none of whose cliques gets a new separator -/
theorem Rep.keep {t t' : JTree K} {c : Nat} {F : Forest} (hends : ∀ s, s < t.sepsets.length → t'.ends s = t.ends s)
    (hadj : ∀ x ∈ F.nodes, t'.adj x = t.adj x) (hr : Rep t c F) : Rep t' c F := by
  induction F generalizing c with
  | nil => trivial
  | cons s d k r ih1 ih2 =>
    obtain ⟨h1, h2, h3, h4⟩ := hr
    simp only [Forest.nodes, List.mem_cons, List.mem_append] at hadj
    refine ⟨?_, ?_, ih1 (fun x hx => hadj x (Or.inr (Or.inl hx))) h3, ih2 (fun x hx => hadj x (Or.inr (Or.inr hx))) h4⟩
    · have : s < t.sepsets.length := by
        unfold Joins JTree.ends at h1
        by_contra hge
        rw [List.getElem?_eq_none (by omega)] at h1
        simp at h1
      unfold Joins at h1 ⊢; rw [hends s this]; exact h1
    · rw [hadj d (Or.inl rfl)]; exact h2

theorem Rep.grafted {t t' : JTree K} {a s b : Nat} {G : Forest} (hends : ∀ s, s < t.sepsets.length → t'.ends s = t.ends s)
    (hs : s = t.sepsets.length) (hj : Joins t' s a b) (hadj : ∀ x, x ≠ b → t'.adj x = if x = a then s :: t.adj x else t.adj x)
    (hadjb : (t'.adj b).filter (fun x => x ≠ s) = G.tops) (hG : Rep t' b G) (hold : ∀ x, ∀ u ∈ t.adj x, u < t.sepsets.length)
    {c : Nat} {F : Forest} (hb : b ∉ F.nodes) (hr : Rep t c F) : Rep t' c (Forest.graft a s b G F) := by
  induction F generalizing c with
  | nil => trivial
  | cons s' d k r ih1 ih2 =>
    obtain ⟨h1, h2, h3, h4⟩ := hr
    simp only [Forest.nodes, List.mem_cons, List.mem_append, not_or] at hb
    have hlt : s' < t.sepsets.length := by
      unfold Joins JTree.ends at h1
      by_contra hge
      rw [List.getElem?_eq_none (by omega)] at h1
      simp at h1
    have hj1 : Joins t' s' c d := by unfold Joins at h1 ⊢; rw [hends s' hlt]; exact h1
    have hadjd := hadj d (fun e => hb.1 e.symm)
    have ih1 := ih1 hb.2.1 h3
    have ih2 := ih2 hb.2.2 h4
    simp only [Forest.graft]
    by_cases e : d = a
    · rw [if_pos e]
      refine ⟨hj1, ?_, ⟨by rw [e]; exact hj, hadjb, hG, ih1⟩, ih2⟩
      rw [hadjd, if_pos e, List.filter_cons, if_pos (by simp; omega), h2]
      simp [Forest.tops, Forest.graft_tops]
    · rw [if_neg e]
      refine ⟨hj1, ?_, ih1, ih2⟩
      rw [hadjd, if_neg e, h2, Forest.graft_tops]

theorem joins_lt {t : JTree K} {s a b : Nat} (h : Joins t s a b) : s < t.sepsets.length := by
  unfold Joins JTree.ends at h
  by_contra hge
  rw [List.getElem?_eq_none (by omega)] at h
  simp at h

theorem Rep.tops_lt {t : JTree K} {c : Nat} {F : Forest} (hr : Rep t c F) : ∀ s ∈ F.tops, s < t.sepsets.length := by
  induction F generalizing c with
  | nil => intro s hs; cases hs
  | cons s d k r _ ih2 =>
    intro x hx
    rcases List.mem_cons.mp hx with rfl | hx
    · exact joins_lt hr.1
    · exact ih2 hr.2.2.2 x hx

theorem Sub.graft {t t' : JTree K} {a b : Nat} (hab : a ≠ b) (hlen : t'.cliques.length = t.cliques.length)
    (hends : ∀ s, s < t.sepsets.length → t'.ends s = t.ends s) (hj : Joins t' t.sepsets.length a b)
    (hadj : ∀ c, t'.adj c = if c = a ∨ c = b then t.sepsets.length :: t.adj c else t.adj c)
    (hold : ∀ x, ∀ u ∈ t.adj x, u < t.sepsets.length) {r : Nat} {F G : Forest} (hF : Sub t none r F) (hG : Sub t none b G)
    (ha : a ∈ r :: F.nodes) (hdis : ∀ x ∈ b :: G.nodes, x ∉ r :: F.nodes) :
    ∃ F', Sub t' none r F' ∧ ∀ x, x ∈ r :: F'.nodes ↔ (x ∈ r :: F.nodes ∨ x ∈ b :: G.nodes) := by
  have hbF : b ∉ r :: F.nodes := hdis b (List.mem_cons_self ..)
  have hGn : ∀ x ∈ G.nodes, x ≠ a ∧ x ≠ b := by
    intro x hx
    refine ⟨?_, ?_⟩
    · rintro rfl; exact hdis x (List.mem_cons_of_mem _ hx) ha
    · rintro rfl; exact (List.nodup_cons.mp hG.nodup).1 hx
  have hGrep : Rep t' b G := hG.rep.keep hends (by
    intro x hx; rw [hadj, if_neg (by rintro (h | h); exact (hGn x hx).1 h; exact (hGn x hx).2 h)])
  have hGt : t.adj b = G.tops := by
    have := hG.tops
    rwa [List.filter_eq_self.mpr (by simp)] at this
  have hadjb : (t'.adj b).filter (fun x => x ≠ t.sepsets.length) = G.tops := by
    rw [hadj, if_pos (Or.inr rfl), List.filter_cons, if_neg (by simp), ← hGt]
    apply List.filter_eq_self.mpr
    intro x hx
    have := hold b x hx
    simp; omega
  have hadja : ∀ x, x ≠ b → t'.adj x = if x = a then t.sepsets.length :: t.adj x else t.adj x := by
    intro x hx; rw [hadj]; simp [hx]
  simp only [List.mem_cons, not_or] at hbF
  have hrep := Rep.grafted hends rfl hj hadja hadjb hGrep hold hbF.2 hF.rep
  have hFt : t.adj r = F.tops := by
    have := hF.tops
    rwa [List.filter_eq_self.mpr (by simp)] at this
  have hndF := List.nodup_cons.mp hF.nodup
  by_cases e : r = a
  · subst e
    have hnot : r ∉ F.nodes := hndF.1
    rw [Forest.graft_id _ _ _ _ _ hnot] at hrep
    refine ⟨.cons t.sepsets.length b G F, ⟨?_, ⟨hj, hadjb, hGrep, hrep⟩, ?_, ?_⟩, ?_⟩
    · rw [List.filter_eq_self.mpr (by simp), hadj, if_pos (Or.inl rfl), hFt]; rfl
    · simp only [Forest.nodes, List.nodup_cons, List.mem_cons, List.mem_append, not_or, List.nodup_append]
      have hG' := List.nodup_cons.mp hG.nodup
      refine ⟨⟨hab, fun h => hdis r (List.mem_cons_of_mem _ h) (List.mem_cons_self ..), hnot⟩, ⟨hG'.1, hbF.2⟩, hG'.2, hndF.2, ?_⟩
      rintro x hx y hy rfl
      exact hdis x (List.mem_cons_of_mem _ hx) (List.mem_cons_of_mem _ hy)
    · intro x hx
      rw [hlen]
      simp only [Forest.nodes, List.mem_cons, List.mem_append] at hx
      have h1 := hF.lt x
      have h2 := hG.lt x
      simp only [List.mem_cons] at h1 h2
      tauto
    · intro x
      simp only [Forest.nodes, List.mem_cons, List.mem_append]
      tauto
  · have haF : a ∈ F.nodes := by
      rcases List.mem_cons.mp ha with h | h
      · exact absurd h.symm e
      · exact h
    have hperm := Forest.graft_nodes a t.sepsets.length b G F haF hndF.2
    have hmem : ∀ x, x ∈ r :: (Forest.graft a t.sepsets.length b G F).nodes ↔ (x ∈ r :: F.nodes ∨ x ∈ b :: G.nodes) := by
      intro x
      rw [List.mem_cons, hperm.mem_iff]
      simp only [List.mem_cons, List.mem_append]
      tauto
    refine ⟨Forest.graft a t.sepsets.length b G F, ⟨?_, hrep, ?_, ?_⟩, hmem⟩
    · rw [List.filter_eq_self.mpr (by simp), (hadja r (fun h => hbF.1 h.symm)).trans (if_neg e), hFt, Forest.graft_tops]
    · rw [(List.Perm.cons r hperm).nodup_iff]
      have hG' := List.nodup_cons.mp hG.nodup
      simp only [List.nodup_cons, List.mem_cons, List.mem_append, not_or, List.nodup_append]
      refine ⟨⟨fun h => hbF.1 h.symm, fun h => hdis r (List.mem_cons_of_mem _ h) (List.mem_cons_self ..), hndF.1⟩, ⟨hG'.1, hbF.2⟩,
        hG'.2, hndF.2, ?_⟩
      rintro x hx y hy rfl
      exact hdis x (List.mem_cons_of_mem _ hx) (List.mem_cons_of_mem _ hy)
    · intro x hx
      rw [hlen]
      rcases (hmem x).mp hx with h | h
      · exact hF.lt x h
      · exact hG.lt x h

theorem KInv.confirm {t : JTree K} {L : List (Nat × Nat)} (h : KInv t L) (s : Sepset K) (h1 : s.first < t.cliques.length)
    (h2 : s.second < t.cliques.length) (hne : comp L s.first ≠ comp L s.second) :
    ∃ t', t.confirm s = ok t' ∧ KInv t' ((s.first, s.second) :: L) ∧ t'.cliques.length = t.cliques.length ∧
      t'.sepsets = t.sepsets ++ [s] ∧
      ∀ c : Nat, (t'.cliques[c]?).map (fun cl => (cl.vars, cl.p, cl.orig)) = (t.cliques[c]?).map (fun cl => (cl.vars, cl.p, cl.orig)) := by
  have hab : s.first ≠ s.second := fun e => hne (by rw [e])
  obtain ⟨t', c1, c2, c3, c4, c5⟩ := confirm_eq t s h1 h2 hab
  refine ⟨t', c1, ?_, c2, c4, c5⟩
  have hends : ∀ x, x < t.sepsets.length → t'.ends x = t.ends x := by
    intro x hx
    unfold JTree.ends
    rw [c4, List.getElem?_append_left hx]
  have hend : t'.ends t.sepsets.length = some (s.first, s.second) := by
    unfold JTree.ends
    rw [c4, List.getElem?_append_right (Nat.le_refl _)]
    simp
  have hold : ∀ x, ∀ u ∈ t.adj x, u < t.sepsets.length := by
    intro x u hu
    by_cases hx : x < t.cliques.length
    · obtain ⟨F, hF, _⟩ := h.roots x hx
      have := hF.tops
      rw [List.filter_eq_self.mpr (by simp)] at this
      rw [this] at hu
      exact hF.rep.tops_lt u hu
    · unfold JTree.adj at hu
      rw [List.getElem?_eq_none (by omega)] at hu
      cases hu
  refine ⟨?_, ?_, ⟨hne, h.forest⟩, ?_⟩
  · intro r hr
    rw [c2] at hr ⊢
    obtain ⟨F, hF, hFx⟩ := h.roots r hr
    obtain ⟨Ga, hGa, hGax⟩ := h.roots s.first h1
    obtain ⟨Gb, hGb, hGbx⟩ := h.roots s.second h2
    have hcomp : ∀ x, comp ((s.first, s.second) :: L) x = if comp L x = comp L s.second then comp L s.first else comp L x := fun x => rfl
    by_cases ea : comp L s.first = comp L r
    · obtain ⟨F', f1, f2⟩ := Sub.graft hab c2 hends (Or.inl hend) c3 hold hF hGb ((hFx _ h1).mpr ea) (by
        intro x hx hx'
        have hxl := hF.lt x hx'
        have e1 := (hGbx x hxl).mp hx
        have e2 := (hFx x hxl).mp hx'
        exact hne (ea.trans (e2.symm.trans e1)))
      refine ⟨F', f1, ?_⟩
      intro x hx
      rw [f2, hFx x hx, hGbx x hx, hcomp, hcomp, ← ea, if_neg hne]
      by_cases e : comp L x = comp L s.second
      · simp [e]
      · simp [e]
    · by_cases eb : comp L s.second = comp L r
      · obtain ⟨F', f1, f2⟩ := Sub.graft hab.symm c2 hends (Or.inr hend) (by intro c; rw [c3]; simp only [or_comm]) hold hF hGa ((hFx _ h2).mpr eb) (by
          intro x hx hx'
          have hxl := hF.lt x hx'
          have e1 := (hGax x hxl).mp hx
          have e2 := (hFx x hxl).mp hx'
          exact hne (e1.symm.trans (e2.trans eb.symm)))
        refine ⟨F', f1, ?_⟩
        intro x hx
        rw [f2, hFx x hx, hGax x hx, hcomp, hcomp, ← eb, if_pos rfl]
        by_cases e : comp L x = comp L s.second
        · simp [e]
        · simp [e]
      · refine ⟨F, ⟨?_, hF.rep.keep hends ?_, hF.nodup, by rw [c2]; exact hF.lt⟩, ?_⟩
        · rw [c3, if_neg]
          · exact hF.tops
          · rintro (e | e)
            · exact ea (by rw [e])
            · exact eb (by rw [e])
        · intro x hx
          rw [c3, if_neg]
          have e2 := (hFx x (hF.lt x (List.mem_cons_of_mem _ hx))).mp (List.mem_cons_of_mem _ hx)
          rintro (e | e)
          · exact ea (by rw [← e]; exact e2)
          · exact eb (by rw [← e]; exact e2)
        · intro x hx
          rw [hFx x hx, hcomp, hcomp, if_neg (show ¬ comp L r = comp L s.second from fun e => eb e.symm)]
          by_cases e : comp L x = comp L s.second
          · rw [if_pos e, e]
            exact ⟨fun e' => absurd e' eb, fun e' => absurd e' ea⟩
          · rw [if_neg e]
  · rw [c4, List.map_append, h.ends, List.reverse_cons]; rfl
  · intro e he
    rw [c2]
    rcases List.mem_cons.mp he with rfl | he
    · exact ⟨h1, h2⟩
    · exact h.range e he

/-- weight of a pair of cliques -/
def wt (vars : Nat → List Nat) (e : Nat × Nat) : Nat := ((vars e.1).filter (· ∈ vars e.2)).length

/-- the invariant of the loop of `nip_create_sepsets` -/
structure SInv (card : Nat → Nat) (vars : Nat → List Nat) (t0 t : JTree K) (h : Heap (Sepset K)) (L : List (Nat × Nat)) : Prop where
  kinv : KInv t L
  len : t.cliques.length = t0.cliques.length
  tab : ∀ c : Nat, (t.cliques[c]?).map (fun cl => (cl.vars, cl.p, cl.orig)) = (t0.cliques[c]?).map (fun cl => (cl.vars, cl.p, cl.orig))
  seps : t.sepsets = L.reverse.map (mkSep card vars)
  cand : ∀ x ∈ h.items, Cand card vars t0.cliques.length x
  ord : Heap.Ord h.items 0 none
  low : ∀ e ∈ L, ∀ x ∈ h.items, -(wt vars e : Int) ≤ x.primary
  done : ∀ i j, i < j → j < t0.cliques.length → (∃ x ∈ h.items, x.content = mkSep card vars (i, j)) ∨
    ∀ k, k ≤ wt vars (i, j) → comp (L.filter (fun e => decide (k ≤ wt vars e))) i = comp (L.filter (fun e => decide (k ≤ wt vars e))) j
  less : ∀ e ∈ L, e.1 < e.2

theorem spanning {n : Nat} {L : List (Nat × Nat)} (hL : ∀ e ∈ L, e.1 < n ∧ e.2 < n) (hf : IsForest L) (hn : 1 ≤ n) :
    L.length + 1 ≤ n ∧ ((∀ i j, i < j → j < n → comp L i = comp L j) → L.length + 1 = n) ∧
      (L.length + 1 = n → ∀ i j, i < n → j < n → comp L i = comp L j) := by
  have hL' : ∀ e ∈ L, e.1 ∈ Finset.range n ∧ e.2 ∈ Finset.range n := by simpa using hL
  have h1 := forest_lt (Finset.range n) L hL' hf ⟨0, by simp; omega⟩
  rw [Finset.card_range] at h1
  refine ⟨h1, ?_, ?_⟩
  · intro h
    have h2 := forest_classes (Finset.range n) L hL' hf
    have h3 : classes (Finset.range n) L ≤ 1 := by
      unfold classes
      rw [Finset.card_le_one]
      intro a ha b hb
      obtain ⟨x, hx, rfl⟩ := Finset.mem_image.mp ha
      obtain ⟨y, hy, rfl⟩ := Finset.mem_image.mp hb
      simp only [Finset.mem_range] at hx hy
      rcases Nat.lt_trichotomy x y with e | e | e
      · exact h x y e hy
      · rw [e]
      · exact (h y x e hx).symm
    rw [Finset.card_range] at h2
    omega
  · intro h i j hi hj
    exact forest_connects (Finset.range n) L hL' hf (by simp; omega) i (by simpa using hi) j (by simpa using hj)

/-- One round of the loop of `nip_create_sepsets`. -/
theorem sepset_step (card : Nat → Nat) (vars : Nat → List Nat) (t0 : JTree K) (hn : 2 ≤ t0.cliques.length) (t : JTree K) (h : Heap (Sepset K)) (L : List (Nat × Nat))
    (hi : SInv card vars t0 t h L) (hlt : L.length < t.cliques.length - 1) :
    ∃ g i j b t1, h.extractMin = ok (some (mkSep card vars (i, j)), g) ∧ i < j ∧ j < t0.cliques.length ∧ t.unmarkAll = ok t.bare ∧
      t.bare.connected (t.bare.cliques.length + 1) i j = ok (b, t1) ∧ (∃ x ∈ h.items, x.content = mkSep card vars (i, j) ∧ (x :: g.items).Perm h.items) ∧
      (∀ x ∈ g.items, -(wt vars (i, j) : Int) ≤ x.primary) ∧
      (b = true → comp L i = comp L j ∧ SInv card vars t0 t1 g L) ∧
      (b = false → comp L i ≠ comp L j ∧ ∃ t2, t1.confirm (mkSep card vars (i, j)) = ok t2 ∧ SInv card vars t0 t2 g ((i, j) :: L)) := by
  have hsp := spanning (n := t0.cliques.length) (by rw [← hi.len]; exact hi.kinv.range) hi.kinv.forest (by omega)
  have hlen := hi.len
  have hpos : 0 < h.items.length := by
    by_contra h0
    have hnil : h.items = [] := List.length_eq_zero_iff.mp (by omega)
    have := hsp.2.1 (by
      intro i j hij hj
      rcases hi.done i j hij hj with ⟨x, hx, _⟩ | hk
      · rw [hnil] at hx; cases hx
      · have := hk 0 (by omega)
        simpa using this)
    omega
  obtain ⟨g, e1, e2, e3⟩ := Heap.extractMin_ord h hpos hi.ord
  obtain ⟨i, j, hij, hj, hcon, hprim⟩ := (hi.cand _ (List.getElem_mem hpos)).eq
  have hsub : ∀ x ∈ g.items, x ∈ h.items := fun x hx => e2.mem_iff.mp (List.mem_cons_of_mem _ hx)
  have hroot : ∀ x ∈ g.items, -(wt vars (i, j) : Int) ≤ x.primary := by
    intro x hx
    have hle : Heap.le h.items[0] x := by
      obtain ⟨m, hm, rfl⟩ := List.getElem_of_mem (hsub x hx)
      exact Heap.root_le hi.ord m hm
    unfold Heap.le at hle
    unfold wt
    simp only
    omega
  have hkb : KInv t.bare L := hi.kinv.shape (bare_bare t)
  have hblen : t.bare.cliques.length = t.cliques.length := (bare_shape t).len
  obtain ⟨F, hF, hFx⟩ := hkb.roots i (by rw [hblen, hlen]; omega)
  obtain ⟨b, t1, d1, d2, d3, _⟩ := connected_spec (t.bare.cliques.length + 1) t.bare none i j F hF
    (by
      have h1 : (i :: F.nodes).toFinset ⊆ Finset.range t.bare.cliques.length := by
        intro x hx; rw [Finset.mem_range]; exact hF.lt x (List.mem_toFinset.mp hx)
      have h2 := Finset.card_le_card h1
      rw [List.toFinset_card_of_nodup hF.nodup, Finset.card_range, List.length_cons] at h2
      omega)
    (fun x _ => bare_mark t x) (by intro s hs; cases hs)
  have hk1 : KInv t1 L := hkb.shape (d2.trans rfl)
  have hb1 : t1.bare = t.bare := d2.trans (bare_bare t)
  have hsh1 := shape_of_bare hb1
  have hsep1 : t1.sepsets = t.sepsets := by
    have := congrArg JTree.sepsets hb1
    exact this
  have htab1 : ∀ c : Nat, (t1.cliques[c]?).map (fun cl => (cl.vars, cl.p, cl.orig)) = (t.cliques[c]?).map (fun cl => (cl.vars, cl.p, cl.orig)) := by
    intro c
    have := congrArg (fun t => (t.cliques[c]?).map (fun cl => (cl.vars, cl.p, cl.orig))) hb1
    simpa [bare, Function.comp_def] using this
  rw [hFx j (by rw [hblen, hlen]; exact hj)] at d3
  have hglen : g.items.length + 1 = h.items.length := by simpa using e2.length_eq
  have hmono : ∀ e : Nat × Nat, ∀ k a b, comp (L.filter (fun e => decide (k ≤ wt vars e))) a = comp (L.filter (fun e => decide (k ≤ wt vars e))) b →
      comp ((e :: L).filter (fun e => decide (k ≤ wt vars e))) a = comp ((e :: L).filter (fun e => decide (k ≤ wt vars e))) b := by
    intro e k a b hab
    refine comp_subset ?_ a b hab
    intro x hx
    rw [List.mem_filter] at hx ⊢
    exact ⟨List.mem_cons_of_mem _ hx.1, hx.2⟩
  have hLw : ∀ k, k ≤ wt vars (i, j) → L.filter (fun e => decide (k ≤ wt vars e)) = L := by
    intro k hk
    apply List.filter_eq_self.mpr
    intro e he
    have h1 := hi.low e he _ (List.getElem_mem hpos)
    have h2 : h.items[0].primary = -(wt vars (i, j) : Int) := hprim
    simp only [decide_eq_true_eq]
    omega
  have hpick : ∀ a b, a < b → b < t0.cliques.length → (∃ x ∈ h.items, x.content = mkSep (K := K) card vars (a, b)) →
      (∃ x ∈ g.items, x.content = mkSep (K := K) card vars (a, b)) ∨ (a = i ∧ b = j) := by
    rintro a b _ _ ⟨x, hx, hxc⟩
    rcases List.mem_cons.mp (e2.mem_iff.mpr hx) with rfl | hx
    · right
      rw [hcon] at hxc
      have q1 := congrArg Sepset.first hxc
      have q2 := congrArg Sepset.second hxc
      exact ⟨q1.symm, q2.symm⟩
    · exact Or.inl ⟨x, hx, hxc⟩
  refine ⟨g, i, j, b, t1, by rw [e1, hcon], hij, hj, unmarkAll_eq t, d1, ⟨_, List.getElem_mem hpos, hcon, e2⟩, hroot, ?_, ?_⟩
  · intro hb
    have hcc : comp L j = comp L i := d3.mp hb
    refine ⟨hcc.symm, ⟨hk1, hsh1.len.trans hlen, fun c => (htab1 c).trans (hi.tab c), hsep1.trans hi.seps,
      fun x hx => hi.cand x (hsub x hx), e3, fun e he x hx => hi.low e he x (hsub x hx), ?_, hi.less⟩⟩
    intro a b hab hb
    rcases hi.done a b hab hb with hx | hk
    · rcases hpick a b hab hb hx with hx | ⟨rfl, rfl⟩
      · exact Or.inl hx
      · right
        intro k hk
        rw [hLw k hk]; exact hcc.symm
    · exact Or.inr hk
  · intro hb
    have hcc : comp L i ≠ comp L j := fun e => by have := d3.mpr e.symm; rw [hb] at this; cases this
    obtain ⟨t2, f1, f2, f3, f4, f5⟩ := hk1.confirm (mkSep card vars (i, j)) (by rw [hsh1.len, hlen]; exact lt_trans hij hj)
      (by rw [hsh1.len, hlen]; exact hj) hcc
    refine ⟨hcc, t2, f1, ⟨f2, f3.trans (hsh1.len.trans hlen), fun c => (f5 c).trans ((htab1 c).trans (hi.tab c)),
      by rw [f4, hsep1, hi.seps]; simp, fun x hx => hi.cand x (hsub x hx), e3, ?_, ?_, ?_⟩⟩
    · intro e he x hx
      rcases List.mem_cons.mp he with rfl | he
      · exact hroot x hx
      · exact hi.low e he x (hsub x hx)
    · intro a b hab hb
      rcases hi.done a b hab hb with hx | hk
      · rcases hpick a b hab hb hx with hx | ⟨rfl, rfl⟩
        · exact Or.inl hx
        · right
          intro k hk
          apply comp_edge _ (a, b)
          rw [List.mem_filter]
          exact ⟨List.mem_cons_self .., by simpa using hk⟩
      · exact Or.inr (fun k hk' => hmono _ k a b (hk k hk'))
    · intro e he
      rcases List.mem_cons.mp he with rfl | he
      · exact hij
      · exact hi.less e he

theorem sepsetLoop_eq (card : Nat → Nat) (vars : Nat → List Nat) (t0 : JTree K) (hn : 2 ≤ t0.cliques.length) (fuel : Nat) :
    ∀ (t : JTree K) (h : Heap (Sepset K)) (L : List (Nat × Nat)), SInv card vars t0 t h L → h.items.length + 1 < fuel →
    ∃ t' h' L', sepsetLoop fuel L.length h t = ok (0, t') ∧ SInv card vars t0 t' h' L' ∧ L'.length + 1 = t0.cliques.length := by
  induction fuel with
  | zero => intro t h L _ hf; omega
  | succ fuel ih =>
    intro t h L hi hf
    have hsp := spanning (n := t0.cliques.length) (by rw [← hi.len]; exact hi.kinv.range) hi.kinv.forest (by omega)
    unfold sepsetLoop
    by_cases hlt : L.length < t.cliques.length - 1
    · rw [if_pos hlt]
      obtain ⟨g, i, j, b, t1, e1, hij, hj, e2, e3, ⟨x, _, _, hp⟩, _, e4, e5⟩ := sepset_step card vars t0 hn t h L hi hlt
      have hglen : g.items.length + 1 = h.items.length := by simpa using hp.length_eq
      rw [e1, ok_bind]
      simp only
      rw [e2, ok_bind]
      have hfs : (mkSep (K := K) card vars (i, j)).first = i ∧ (mkSep (K := K) card vars (i, j)).second = j := ⟨rfl, rfl⟩
      rw [hfs.1, hfs.2, e3, ok_bind]
      simp only
      cases b with
      | true =>
        simp only [Bool.not_true, Bool.false_eq_true, if_false]
        exact ih t1 g L (e4 rfl).2 (by omega)
      | false =>
        obtain ⟨_, t2, f1, f2⟩ := e5 rfl
        simp only [Bool.not_false, if_true]
        rw [f1, ok_bind]
        have := ih t2 g ((i, j) :: L) f2 (by omega)
        rw [List.length_cons] at this
        exact this
    · rw [if_neg hlt]
      have := hi.len
      exact ⟨t, h, L, rfl, hi, by omega⟩

/-- What `nip_create_sepsets` makes of at least two cliques without separators. -/
theorem createSepsets_eq (ptr : Nat) (card : Nat → Nat) (t0 : JTree K) (vars : Nat → List Nat)
    (hv : ∀ i (h : i < t0.cliques.length), t0.cliques[i].vars = vars i) (hn : 2 ≤ t0.cliques.length) (hs : t0.sepsets = [])
    (ha : ∀ c, t0.adj c = []) :
    ∃ t' L, t0.createSepsets ptr card = ok (0, t') ∧ KInv t' L ∧ t'.cliques.length = t0.cliques.length ∧
      (∀ c : Nat, (t'.cliques[c]?).map (fun cl => (cl.vars, cl.p, cl.orig)) = (t0.cliques[c]?).map (fun cl => (cl.vars, cl.p, cl.orig))) ∧
      t'.sepsets = L.reverse.map (mkSep card vars) ∧ L.length + 1 = t0.cliques.length ∧ (∀ e ∈ L, e.1 < e.2) ∧
      ∀ k i j, i < t0.cliques.length → j < t0.cliques.length → i < j → k ≤ wt vars (i, j) →
        comp (L.filter (fun e => decide (k ≤ wt vars e))) i = comp (L.filter (fun e => decide (k ≤ wt vars e))) j := by
  obtain ⟨h, h1, h2, h3, h4, _⟩ := buildSepsetHeap_eq ptr card t0 vars hv hn
  have hi : SInv card vars t0 t0 h [] := by
    refine ⟨⟨?_, by rw [hs]; rfl, trivial, by simp⟩, rfl, fun _ => rfl, by rw [hs]; rfl, h3, h2, by simp, fun i j hij hj => Or.inl (h4 i j hij hj),
      by simp⟩
    intro r hr
    refine ⟨.nil, ⟨by rw [ha]; rfl, trivial, by simp [Forest.nodes], by simpa [Forest.nodes] using hr⟩, ?_⟩
    intro x _
    simp [Forest.nodes, comp]
  obtain ⟨t', h', L, r1, r2, r3⟩ := sepsetLoop_eq card vars t0 hn (h.items.length + 2) t0 h [] hi (by omega)
  refine ⟨t', L, ?_, r2.kinv, r2.len, r2.tab, r2.seps, r3, r2.less, ?_⟩
  · unfold createSepsets
    rw [h1, ok_bind]
    exact r1
  · intro k i j hi' hj hij hk
    rcases r2.done i j hij hj with ⟨x, hx, hxc⟩ | hd
    · have hall : L.filter (fun e => decide (k ≤ wt vars e)) = L := by
        apply List.filter_eq_self.mpr
        intro e he
        have h1 := r2.low e he x hx
        obtain ⟨a, b, _, _, hc, hp⟩ := (r2.cand x hx).eq
        rw [hxc] at hc
        have q1 : i = a := congrArg Sepset.first hc
        have q2 : j = b := congrArg Sepset.second hc
        subst q1; subst q2
        unfold wt at *
        simp only [decide_eq_true_eq] at *
        omega
      rw [hall]
      have := (spanning (n := t0.cliques.length) (by rw [← r2.len]; exact r2.kinv.range) r2.kinv.forest (by omega)).2.2 r3 i j hi' hj
      exact this
    · exact hd k hk

end JTree
end Nip
