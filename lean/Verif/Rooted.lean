import Verif.Calibrate

/-! # The tree of cliques seen from any of its cliques -/

namespace Nip

open Res Spec

set_option linter.unusedSectionVars false

theorem eqvGen_cross {R : Nat → Nat → Prop} {D : Nat → Prop} {a b : Nat} (h : Relation.EqvGen R a b) (ha : D a) (hb : ¬ D b) :
    ∃ x y, (R x y ∨ R y x) ∧ D x ∧ ¬ D y := by
  by_contra hno
  have key : ∀ x y, R x y → (D x ↔ D y) := by
    intro x y hxy
    constructor
    · intro hx; by_contra hy; exact hno ⟨x, y, Or.inl hxy, hx, hy⟩
    · intro hy; by_contra hx; exact hno ⟨y, x, Or.inr hxy, hy, hx⟩
  have all : ∀ a b, Relation.EqvGen R a b → (D a ↔ D b) := by
    intro a b h
    induction h with
    | rel x y h => exact key x y h
    | refl x => exact Iff.rfl
    | symm x y _ ih => exact ih.symm
    | trans x y z _ _ ih1 ih2 => exact ih1.trans ih2
  exact hb ((all a b h).mp ha)

variable {K : Type} [Zero K] [One K] [Add K] [_root_.Sub K] [Mul K] [Div K] [LinearOrder K] {card : Nat → Nat}

namespace JTree

theorem joins_both {t : JTree K} (ht : Typed card t) {s a b : Nat} (hj : Joins t s a b) : t.sepVars s ⊆ t.varsOf a ∧ t.sepVars s ⊆ t.varsOf b := by
  obtain ⟨sp, hsp, he⟩ := joins_sep hj
  obtain ⟨_, _, _, h1, h2⟩ := ht.sep s sp hsp
  rw [sepVars_eq hsp]
  rcases he with ⟨e1, e2⟩ | ⟨e1, e2⟩
  · rw [← e1, ← e2]; exact ⟨h1, h2⟩
  · rw [← e1, ← e2]; exact ⟨h2, h1⟩

theorem rep_fits {t : JTree K} (ht : Typed card t) {c : Nat} {F : Forest} (h : Rep t c F) : Fits t.varsOf t.sepVars c F := by
  induction F generalizing c with
  | nil => trivial
  | cons s d k r ih1 ih2 =>
    obtain ⟨h1, _, h3, h4⟩ := h
    exact ⟨(joins_both ht h1).1, (joins_both ht h1).2, ih1 h3, ih2 h4⟩

theorem rep_rip {t : JTree K} (hrip : t.Rip) {c : Nat} {F : Forest} (h : Rep t c F) (hd : Dist c F)
    (hs : ∀ s a b, Joins t s a b → a ∈ F.nodes → s ∈ F.seps) : RipF t.varsOf t.sepVars c F := by
  induction F generalizing c with
  | nil => trivial
  | cons s d k r ih1 ih2 =>
    obtain ⟨h1, _, h3, h4⟩ := h
    obtain ⟨p1, p2, hcd, hck, hcr, hdk, hdr, hkr, hsk, hsr, hskr⟩ := hd.parts
    simp only [Forest.nodes, Forest.seps, List.mem_cons, List.mem_append] at hs
    -- separators below `d` join cliques there; the others do not
    have kin : ∀ s' ∈ k.seps, ∀ a b, Joins t s' a b → a ∈ d :: k.nodes ∧ b ∈ d :: k.nodes := by
      intro s' hs' a b hj
      obtain ⟨a', ha', b', hb', hj'⟩ := h3.joins s' hs'
      rcases joins_unique hj hj' with ⟨rfl, rfl⟩ | ⟨rfl, rfl⟩
      · exact ⟨ha', hb'⟩
      · exact ⟨hb', ha'⟩
    have rin : ∀ s' ∈ r.seps, ∀ a b, Joins t s' a b → a ∈ c :: r.nodes ∧ b ∈ c :: r.nodes := by
      intro s' hs' a b hj
      obtain ⟨a', ha', b', hb', hj'⟩ := h4.joins s' hs'
      rcases joins_unique hj hj' with ⟨rfl, rfl⟩ | ⟨rfl, rfl⟩
      · exact ⟨ha', hb'⟩
      · exact ⟨hb', ha'⟩
    have dis : ∀ x, x ∈ d :: k.nodes → x ∉ c :: r.nodes := by
      intro x hx hx'
      simp only [List.mem_cons] at hx hx'
      rcases hx with rfl | hx <;> rcases hx' with rfl | hx'
      · exact hcd rfl
      · exact hdr hx'
      · exact hck hx
      · exact hkr x hx hx'
    refine ⟨?_, ih1 h3 p1 ?_, ih2 h4 p2 ?_⟩
    · intro v e e' he he' hv hv'
      obtain ⟨x, y, hxy, hx, hy⟩ := eqvGen_cross (D := fun z => z ∈ d :: k.nodes) (hrip v e e' hv hv') he he'
      have hj : ∃ s', Joins t s' x y ∧ v ∈ t.sepVars s' := by
        have aux : ∀ sp ∈ t.sepsets, v ∈ sp.vars → ∃ s', t.ends s' = some (sp.first, sp.second) ∧ v ∈ t.sepVars s' := by
          intro sp hsp hv
          obtain ⟨i, hi, rfl⟩ := List.mem_iff_getElem.mp hsp
          refine ⟨i, ?_, ?_⟩
          · unfold ends; rw [List.getElem?_eq_getElem hi]; rfl
          · rw [sepVars_eq (List.getElem?_eq_getElem hi)]; exact hv
        rcases hxy with ⟨sp, hsp, e1, e2, hv⟩ | ⟨sp, hsp, e1, e2, hv⟩
        · obtain ⟨s', h1, h2⟩ := aux sp hsp hv
          rw [e1, e2] at h1
          exact ⟨s', Or.inl h1, h2⟩
        · obtain ⟨s', h1, h2⟩ := aux sp hsp hv
          rw [e1, e2] at h1
          exact ⟨s', Or.inr h1, h2⟩
      obtain ⟨s', hj, hvs⟩ := hj
      rcases hs s' x y hj (by rcases List.mem_cons.mp hx with h | h; exacts [Or.inl h, Or.inr (Or.inl h)]) with rfl | h | h
      · exact hvs
      · exact absurd (kin s' h x y hj).2 hy
      · exact absurd (rin s' h x y hj).1 (dis x hx)
    · intro s' a b hj ha
      rcases hs s' a b hj (Or.inr (Or.inl ha)) with rfl | h | h
      · exfalso
        rcases joins_unique hj h1 with ⟨rfl, rfl⟩ | ⟨rfl, rfl⟩
        · exact hck ha
        · exact hdk ha
      · exact h
      · exact absurd (rin s' h a b hj).1 (dis a (List.mem_cons_of_mem _ ha))
    · intro s' a b hj ha
      rcases hs s' a b hj (Or.inr (Or.inr ha)) with rfl | h | h
      · exfalso
        rcases joins_unique hj h1 with ⟨rfl, rfl⟩ | ⟨rfl, rfl⟩
        · exact hcr ha
        · exact hdr ha
      · exact absurd (List.mem_cons_of_mem _ ha) (dis a (kin s' h a b hj).1)
      · exact h

/-- what is known of the tree rooted at any clique -/
structure Rooted (t : JTree K) (r : Nat) (F : Forest) : Prop where
  sub : Sub t none r F
  dist : Dist r F
  nodes : ∀ x, x ∈ r :: F.nodes ↔ x < t.cliques.length
  seps : ∀ s, s ∈ F.seps ↔ s < t.sepsets.length
  fits : Fits t.varsOf t.sepVars r F
  rip : RipF t.varsOf t.sepVars r F

theorem Good.rooted {t : JTree K} {L : List (Nat × Nat)} (h : t.Good card L) (ht : Typed card t) {c : Nat} (hc : c < t.cliques.length) :
    ∃ F, Rooted t c F := by
  obtain ⟨F, hF, hFx⟩ := h.kinv.roots c hc
  have hnd := hF.rep.seps_nodup hF.nodup
  have hsl : t.sepsets.length + 1 = t.cliques.length := by
    have := congrArg List.length h.kinv.ends
    have hl := h.len
    simp at this; omega
  have hspan := (JTree.spanning h.kinv.range h.kinv.forest (by omega)).2.2 h.len
  have hall : ∀ x, x < t.cliques.length → x ∈ c :: F.nodes := fun x hx => (hFx x hx).mpr (hspan x c hx hc)
  have hFlen : F.nodes.length + 1 = t.cliques.length := by
    have h1 : (c :: F.nodes).toFinset = Finset.range t.cliques.length := by
      ext x; rw [List.mem_toFinset, Finset.mem_range]; exact ⟨hF.lt x, hall x⟩
    have h2 := congrArg Finset.card h1
    rw [List.toFinset_card_of_nodup hF.nodup, Finset.card_range, List.length_cons] at h2
    exact h2
  have h1 : F.seps.toFinset ⊆ Finset.range t.sepsets.length := by
    intro x hx
    rw [List.mem_toFinset] at hx
    obtain ⟨a, _, b, _, hj⟩ := hF.rep.joins x hx
    rw [Finset.mem_range]; exact JTree.joins_lt hj
  have h2 := Finset.eq_of_subset_of_card_le h1 (by
    rw [List.toFinset_card_of_nodup hnd, Finset.card_range, Forest.seps_length]; omega)
  have hseps : ∀ s, s ∈ F.seps ↔ s < t.sepsets.length := by
    intro s
    rw [← List.mem_toFinset, h2, Finset.mem_range]
  refine ⟨F, hF, ⟨hF.nodup, hnd⟩, fun x => ⟨hF.lt x, hall x⟩, hseps, rep_fits ht hF.rep, rep_rip h.rip hF.rep ⟨hF.nodup, hnd⟩ ?_⟩
  intro s a b hj _
  exact (hseps s).mpr (joins_lt hj)

/-- neighbours agree on the separator between them -/
def Agrees {K : Type} [Field K] [LinearOrder K] [IsStrictOrderedRing K] (card : Nat → Nat) (t : JTree K) (σ : St K) : Prop :=
  ∀ s a b, Joins t s a b → σ.ψ s = mg card t.varsOf t.sepVars σ a s ∧ σ.ψ s = mg card t.varsOf t.sepVars σ b s

theorem agrees_of_full {K : Type} [Field K] [LinearOrder K] [IsStrictOrderedRing K] {t : JTree K} {σ : St K} {r : Nat} {F : Forest} (h : Rooted t r F) (hf : Full card t.varsOf t.sepVars σ r F) : Agrees card t σ := by
  have key : ∀ (c : Nat) (G : Forest), Rep t c G → Full card t.varsOf t.sepVars σ c G → ∀ s ∈ G.seps, ∀ a b, Joins t s a b →
      σ.ψ s = mg card t.varsOf t.sepVars σ a s ∧ σ.ψ s = mg card t.varsOf t.sepVars σ b s := by
    intro c G
    induction G generalizing c with
    | nil => intro _ _ s hs; cases hs
    | cons s d k r ih1 ih2 =>
      intro hr hf x hx a b hj
      obtain ⟨h1, _, h3, h4⟩ := hr
      obtain ⟨g1, g2, g3, g4⟩ := hf
      simp only [Forest.seps, List.mem_cons, List.mem_append] at hx
      rcases hx with rfl | hx | hx
      · rcases joins_unique hj h1 with ⟨rfl, rfl⟩ | ⟨rfl, rfl⟩
        · exact ⟨g1, g2⟩
        · exact ⟨g2, g1⟩
      · exact ih1 d h3 g3 x hx a b hj
      · exact ih2 c h4 g4 x hx a b hj
  intro s a b hj
  exact key r F h.sub.rep hf s ((h.seps s).mpr (joins_lt hj)) a b hj

theorem full_of_agrees {K : Type} [Field K] [LinearOrder K] [IsStrictOrderedRing K] {t : JTree K} {σ : St K} (h : Agrees card t σ) {c : Nat} {F : Forest} (hr : Rep t c F) : Full card t.varsOf t.sepVars σ c F := by
  induction F generalizing c with
  | nil => trivial
  | cons s d k r ih1 ih2 =>
    obtain ⟨h1, _, h3, h4⟩ := hr
    exact ⟨(h s c d h1).1, (h s c d h1).2, ih1 h3, ih2 h4⟩

/-- no negative numbers in the tables -/
structure Nonneg (card : Nat → Nat) (t : JTree K) : Prop where
  φ : ∀ c x, 0 ≤ t.phi card c x
  ψ : ∀ s x, 0 ≤ t.psi card s x

theorem Typed.reg {K : Type} [Field K] [LinearOrder K] [IsStrictOrderedRing K] {t : JTree K} (ht : Typed card t) (hn : Nonneg card t) : Reg card t.varsOf t.sepVars (t.st card) := by
  refine ⟨?_, ?_, ?_, ?_, hn.φ, hn.ψ, ?_⟩
  · intro c v hv
    show Indep v (t.phi card c)
    intro x i
    unfold phi
    unfold varsOf at hv
    cases h : t.cliques[c]? with
    | none => rfl
    | some cl => rw [h] at hv; exact sem_indep hv x i
  · intro s v hv
    show Indep v (t.psi card s)
    intro x i
    unfold psi
    unfold sepVars at hv
    cases h : t.sepsets[s]? with
    | none => rfl
    | some sp => rw [h] at hv; exact sem_indep hv x i
  · intro c
    show Modular card (t.phi card c)
    intro x i
    unfold phi
    cases h : t.cliques[c]? with
    | none => rfl
    | some cl => exact sem_modular cl.vars cl.p x i
  · intro s
    show Modular card (t.psi card s)
    intro x i
    unfold psi
    cases h : t.sepsets[s]? with
    | none => rfl
    | some sp => exact sem_modular sp.vars sp.new x i
  · intro c v hv
    unfold varsOf at hv
    cases h : t.cliques[c]? with
    | none => rw [h] at hv; cases hv
    | some cl => rw [h] at hv; exact (ht.clq c cl h).2.1.pos v hv

theorem Typed.nodup {t : JTree K} (ht : Typed card t) (c : Nat) : (t.varsOf c).Nodup := by
  unfold varsOf
  cases h : t.cliques[c]? with
  | none => exact List.nodup_nil
  | some cl => exact (ht.clq c cl h).1

theorem Good.frame {t t' : JTree K} {L : List (Nat × Nat)} (h : t.Good card L) (hsh : SameShape t t')
    (hseps : t'.sepsets.map (fun s => (s.vars, s.first, s.second)) = t.sepsets.map (fun s => (s.vars, s.first, s.second)))
    (hvars : ∀ c, t'.varsOf c = t.varsOf c) : t'.Good card L := by
  have hmem : ∀ s' ∈ t'.sepsets, ∃ s ∈ t.sepsets, s.vars = s'.vars ∧ s.first = s'.first ∧ s.second = s'.second := by
    intro s' h'
    have : (s'.vars, s'.first, s'.second) ∈ t.sepsets.map (fun s => (s.vars, s.first, s.second)) := by
      rw [← hseps]; exact List.mem_map.mpr ⟨s', h', rfl⟩
    obtain ⟨s, h1, h2⟩ := List.mem_map.mp this
    simp only [Prod.mk.injEq] at h2
    exact ⟨s, h1, h2⟩
  have hmem' : ∀ s ∈ t.sepsets, ∃ s' ∈ t'.sepsets, s.vars = s'.vars ∧ s.first = s'.first ∧ s.second = s'.second := by
    intro s' h'
    have : (s'.vars, s'.first, s'.second) ∈ t'.sepsets.map (fun s => (s.vars, s.first, s.second)) := by
      rw [hseps]; exact List.mem_map.mpr ⟨s', h', rfl⟩
    obtain ⟨s, h1, h2⟩ := List.mem_map.mp this
    simp only [Prod.mk.injEq] at h2
    exact ⟨s, h1, h2.1.symm, h2.2.1.symm, h2.2.2.symm⟩
  refine ⟨⟨?_, ?_, h.kinv.forest, ?_⟩, ?_, ?_, ?_⟩
  · intro r hr
    rw [hsh.len] at hr ⊢
    obtain ⟨F, hF, hx⟩ := h.kinv.roots r hr
    exact ⟨F, hF.shape hsh, hx⟩
  · rw [← h.kinv.ends]
    have := congrArg (List.map (fun p : List Nat × Nat × Nat => p.2)) hseps
    simpa [List.map_map, Function.comp_def] using this
  · rw [hsh.len]; exact h.kinv.range
  · rw [hsh.len]; exact h.len
  · intro s' hs'
    obtain ⟨s, h1, e1, e2, e3⟩ := hmem s' hs'
    rw [hvars, hvars, ← e1, ← e2, ← e3]
    exact h.sepvars s h1
  · intro v i j hi hj
    rw [hvars] at hi hj
    refine Relation.EqvGen.mono ?_ _ _ (h.rip v i j hi hj)
    rintro a b ⟨s, h1, e1, e2, hv⟩
    obtain ⟨s', h1', e1', e2', e3'⟩ := hmem' s h1
    exact ⟨s', h1', by rw [← e2', e1], by rw [← e3', e2], by rw [← e1']; exact hv⟩

theorem Good.skel {t t' : JTree K} {L : List (Nat × Nat)} (h : t.Good card L) (hs : t'.skel = t.skel) : t'.Good card L :=
  h.frame (skel_shape hs) (congrArg Prod.snd hs) (skel_vars hs)

theorem collect_lt {t : JTree K} {r : Nat} {F : Forest} (h : Rooted t r F) :
    ∀ m ∈ collectMsgs r F, m.1 < t.cliques.length ∧ m.2.1 < t.sepsets.length ∧ m.2.2 < t.cliques.length := by
  have key : ∀ (c : Nat) (G : Forest), ∀ m ∈ collectMsgs c G, m.1 ∈ G.nodes := by
    intro c G
    induction G generalizing c with
    | nil => intro m hm; cases hm
    | cons s d k r ih1 ih2 =>
      intro m hm
      simp only [collectMsgs, List.mem_append, List.mem_cons] at hm
      simp only [Forest.nodes, List.mem_cons, List.mem_append]
      rcases hm with hm | rfl | hm
      · exact Or.inr (Or.inl (ih1 d m hm))
      · exact Or.inl rfl
      · exact Or.inr (Or.inr (ih2 c m hm))
  intro m hm
  obtain ⟨h1, h2⟩ := collectMsgs_mem m hm
  exact ⟨(h.nodes _).mp (List.mem_cons_of_mem _ (key r F m hm)), (h.seps _).mp h2, (h.nodes _).mp h1⟩

theorem dist_lt {t : JTree K} {r : Nat} {F : Forest} (h : Rooted t r F) :
    ∀ m ∈ topMsgs r F ++ distSub F, m.1 < t.cliques.length ∧ m.2.1 < t.sepsets.length ∧ m.2.2 < t.cliques.length := by
  have key1 : ∀ (c : Nat) (G : Forest), ∀ m ∈ topMsgs c G, m.1 = c := by
    intro c G
    induction G with
    | nil => intro m hm; cases hm
    | cons s d k r ih1 ih2 =>
      intro m hm
      simp only [topMsgs, List.mem_cons] at hm
      rcases hm with rfl | hm
      · rfl
      · exact ih2 m hm
  have key2 : ∀ (G : Forest), ∀ m ∈ distSub G, m.1 ∈ G.nodes := by
    intro G
    induction G with
    | nil => intro m hm; cases hm
    | cons s d k r ih1 ih2 =>
      intro m hm
      simp only [distSub, List.mem_append] at hm
      simp only [Forest.nodes, List.mem_cons, List.mem_append]
      rcases hm with (hm | hm) | hm
      · exact Or.inl (key1 d k m hm)
      · exact Or.inr (Or.inl (ih1 m hm))
      · exact Or.inr (Or.inr (ih2 m hm))
  intro m hm
  rcases List.mem_append.mp hm with hm | hm
  · obtain ⟨h1, h2⟩ := topMsgs_mem m hm
    exact ⟨(h.nodes _).mp (by rw [key1 r F m hm]; exact List.mem_cons_self ..), (h.seps _).mp h2, (h.nodes _).mp (List.mem_cons_of_mem _ h1)⟩
  · obtain ⟨h1, h2⟩ := distSub_mem m hm
    exact ⟨(h.nodes _).mp (List.mem_cons_of_mem _ (key2 F m hm)), (h.seps _).mp h2, (h.nodes _).mp (List.mem_cons_of_mem _ h1)⟩

/-- **a full round of messages on a good tree** -/
theorem rounds {K : Type} [Field K] [LinearOrder K] [IsStrictOrderedRing K] {t : JTree K} {L : List (Nat × Nat)} (hg : t.Good card L) (ht : Typed card t) (hn : Nonneg card t) :
    ∃ t1 t2, t.bare.collect (t.cliques.length + 1) none none 0 = ok (0, t1) ∧ t1.bare.distribute (t1.cliques.length + 1) 0 = ok (0, t2) ∧
      t2.skel = t.skel ∧ Typed card t2 ∧ Nonneg card t2 ∧ Agrees card t2 (t2.st card) ∧ (∀ c, t2.markOf c = decide (c < t.cliques.length)) ∧
      ∀ T, Repr t.cliques.length t.sepsets.length (t.st card) T → Repr t.cliques.length t.sepsets.length (t2.st card) T := by
  have h0 : 0 < t.cliques.length := by have := hg.len; omega
  obtain ⟨F, hF⟩ := hg.rooted ht h0
  have hFlen : F.nodes.length < t.cliques.length + 1 := by
    have h1 : (0 :: F.nodes).toFinset = Finset.range t.cliques.length := by
      ext x; rw [List.mem_toFinset, Finset.mem_range]; exact hF.nodes x
    have h2 := congrArg Finset.card h1
    rw [List.toFinset_card_of_nodup hF.dist.nodes, Finset.card_range, List.length_cons] at h2
    omega
  obtain ⟨t1, c1, c2, c3, c4, c5⟩ := collect_spec (card := card) (t.cliques.length + 1) t.bare none 0 F ht.bare
    (hF.sub.shape (bare_shape t)) hFlen (fun x _ => bare_mark t x) (by intro p s h; cases h)
  simp only [parentMsg, List.append_nil] at c5
  have e1 : t1.skel = t.skel := c2.trans (bare_skel t)
  rw [bare_st, funext (skel_vars (bare_skel t)), funext (skel_sepVars (bare_skel t))] at c5
  have e2 : t1.bare.skel = t.skel := (bare_skel t1).trans e1
  have hl1 : t1.cliques.length = t.cliques.length := skel_len e1
  obtain ⟨t2, d1, d2, d3, d4, d5⟩ := distribute_spec (card := card) (t1.cliques.length + 1) t1.bare none 0 F c3.bare
    (hF.sub.shape (skel_shape e2)) (by rw [hl1]; exact hFlen) (fun x _ => bare_mark t1 x) (by intro s h; cases h)
  have e3 : t2.skel = t.skel := d2.trans e2
  rw [bare_st, funext (skel_vars e2), funext (skel_sepVars e2), c5] at d5
  have r0 := ht.reg hn
  have r1 := r0.foldl (collectMsgs_fits hF.fits)
  have hfits2 : ∀ m ∈ topMsgs 0 F ++ distSub F, t.sepVars m.2.1 ⊆ t.varsOf m.2.2 := by
    intro m hm
    rcases List.mem_append.mp hm with hm | hm
    · exact topMsgs_fits hF.fits m hm
    · exact distSub_fits hF.fits m hm
  have r2 := r1.foldl hfits2
  have hfull := rounds_full (t.st card) hF.dist hF.fits r0
  rw [← d5] at hfull r2
  have hag := agrees_of_full hF hfull
  refine ⟨t1, t2, c1, d1, e3, d3, ⟨r2.φn, r2.ψn⟩, ?_, ?_, ?_⟩
  · intro s a b hj
    rw [funext (skel_vars e3), funext (skel_sepVars e3)]
    exact hag s a b (hj.shape (skel_shape e3.symm))
  · intro c
    rw [d4, bare_mark]
    simp only [Bool.false_or]
    exact decide_eq_decide.mpr (hF.nodes c)
  · intro T hT
    have t1' := hT.foldl r0 (collectMsgs_fits hF.fits) (collect_lt hF)
    have t2' := t1'.foldl r1 hfits2 (dist_lt hF)
    rw [← d5] at t2'
    exact t2'

/-- **marginals**: when neighbours agree, every clique holds the sum of the represented function over the other variables -/
theorem marginal {K : Type} [Field K] [LinearOrder K] [IsStrictOrderedRing K] {t : JTree K} {L : List (Nat × Nat)} (hg : t.Good card L) (ht : Typed card t) (hn : Nonneg card t)
    (ha : Agrees card t (t.st card)) {T : Asg → K} (hT : Repr t.cliques.length t.sepsets.length (t.st card) T) {U : List Nat} (hU : U.Nodup)
    (hUV : ∀ v, v ∈ U ↔ ∃ e, e < t.cliques.length ∧ v ∈ t.varsOf e) {c : Nat} (hc : c < t.cliques.length) (x : Asg) :
    t.phi card c x = sumOver card (without U (t.varsOf c)) T x := by
  obtain ⟨F, hF⟩ := hg.rooted ht hc
  exact calibrated (ht.reg hn) hT hF.dist hF.fits hF.rip (full_of_agrees ha hF.sub.rep) ht.nodup hF.nodes hF.seps hU hUV x

end JTree
end Nip
