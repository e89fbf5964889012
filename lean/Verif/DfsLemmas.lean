import Verif.Rooted

/-! # Traversals that restore the tables and that sum them -/

namespace Nip

open Res Spec

set_option linter.unusedSectionVars false

variable {K : Type} [Zero K] [One K] [Add K] [_root_.Sub K] [Mul K] [Div K] [LinearOrder K] {card : Nat → Nat}

/-- the table of ones -/
def ones (K : Type) [One K] (card : Nat → Nat) (vs : List Nat) : Potential K := ⟨vs.map card, List.replicate (vs.map card).prod 1⟩

theorem uniform_ones {vs : List Nat} {p : Potential K} (h : TableOn card vs p) : p.uniform 1 = ones K card vs := by
  unfold Potential.uniform ones Potential.size
  rw [h.wf.1, h.card_eq]

theorem ones_on {vs : List Nat} (hpos : ∀ v ∈ vs, 0 < card v) : TableOn card vs (ones K card vs) := by
  refine ⟨Potential.replicate_wf ?_ 1, rfl⟩
  intro c hc
  obtain ⟨v, hv, rfl⟩ := List.mem_map.mp hc
  exact hpos v hv

theorem sem_ones {vs : List Nat} (hpos : ∀ v ∈ vs, 0 < card v) (x : Asg) : sem card vs (ones K card vs) x = 1 :=
  Potential.replicate_at' (states_inRange hpos x) 1

theorem data_sum {K : Type} [Field K] [LinearOrder K] [IsStrictOrderedRing K] {vs : List Nat} (hn : vs.Nodup) {p : Potential K} (hp : TableOn card vs p) (x : Asg) :
    p.data.sum = sumOver card vs (sem card vs p) x := by
  have h := sumTuples_sem hn (List.nil_subset vs) hp x
  have e : vs.filter (· ∉ ([] : List Nat)) = vs := by simp
  rw [e] at h
  rw [← h]
  have e2 : sumTuples p.card (fun idx => project (places vs []) idx = states card [] x) p.at' = sumTuples p.card (fun _ => True) p.at' :=
    Potential.sumTuples_congr (fun idx _ => by simp [places, project, states]) (fun _ _ => rfl)
  rw [e2, sumTuples_eq hp.wf.2, ← sum_range_list]
  simp only [if_true]
  congr 1
  apply List.ext_getElem
  · simp [hp.wf.1]
  · intro i h1 h2
    simp only [List.getElem_map, List.getElem_range]
    exact (Potential.at'_digits hp.wf h1).symm

namespace JTree

theorem events_clq {F : Forest} : ∀ c, Ev.clq c ∈ events F ↔ c ∈ F.nodes := by
  induction F with
  | nil => intro c; simp [events, Forest.nodes]
  | cons s d k r ih1 ih2 => intro c; simp [events, Forest.nodes, ih1, ih2]

theorem events_sep {F : Forest} : ∀ s, Ev.sep s ∈ events F ↔ s ∈ F.seps := by
  induction F with
  | nil => intro c; simp [events, Forest.seps]
  | cons s d k r ih1 ih2 => intro c; simp [events, Forest.seps, ih1, ih2]

/-- the tree with the original tables of cliques, separators of ones, everything marked -/
def retracted (card : Nat → Nat) (t : JTree K) : JTree K :=
  { cliques := t.cliques.map (fun c => { c with p := c.orig, mark := true })
    sepsets := t.sepsets.map (fun s => { s with old := ones K card s.vars, new := ones K card s.vars }) }

/-- while the tables are being restored -/
structure RInv (card : Nat → Nat) (t0 : JTree K) (done : List Ev) (t : JTree K) : Prop where
  skel : t.skel = t0.skel
  typed : Typed card t
  clq : ∀ (c : Nat) cl, Ev.clq c ∈ done → t.cliques[c]? = some cl → cl.p = cl.orig
  sep : ∀ (s : Nat) sp, Ev.sep s ∈ done → t.sepsets[s]? = some sp → sp.old = ones K card sp.vars ∧ sp.new = ones K card sp.vars

theorem retract_spec {t : JTree K} {L : List (Nat × Nat)} (hg : t.Good card L) (ht : Typed card t) :
    dfs retractClique retractSepset (t.cliques.length + 1) (t.bare, 0) 0 = ok (0, (retracted card t, 0)) := by
  have h0 : 0 < t.cliques.length := by have := hg.len; omega
  obtain ⟨F, hF⟩ := hg.rooted ht h0
  have hFlen : F.nodes.length < t.cliques.length + 1 := by
    have h1 : (0 :: F.nodes).toFinset = Finset.range t.cliques.length := by
      ext x; rw [List.mem_toFinset, Finset.mem_range]; exact hF.nodes x
    have h2 := congrArg Finset.card h1
    rw [List.toFinset_card_of_nodup hF.dist.nodes, Finset.card_range, List.length_cons] at h2
    omega
  obtain ⟨t', a', h1, h2, ⟨h3, h3a⟩, h4⟩ := dfs_spec retractClique retractSepset (fun done st => RInv card t done st.1 ∧ st.2 = 0)
    (by
      rintro done w w' a ⟨⟨i1, i2, i3, i4⟩, ha⟩ hb
      have hsep : w'.sepsets = w.sepsets := by
        have := congrArg JTree.sepsets hb
        exact this
      refine ⟨⟨(skel_of_bare hb).trans i1, i2.of_bare hb, ?_, ?_⟩, ha⟩
      · intro c cl hc hcl
        have e1 : w'.bare.cliques[c]? = some { cl with mark := false } := by unfold JTree.bare; simp [hcl]
        rw [hb] at e1
        unfold JTree.bare at e1
        simp only [List.getElem?_map, Option.map_eq_some_iff] at e1
        obtain ⟨cl', e2, e3⟩ := e1
        have := i3 c cl' hc e2
        have e4 := congrArg Clique.p e3
        have e5 := congrArg Clique.orig e3
        simp only at e4 e5
        rw [← e4, ← e5]; exact this
      · rw [hsep]; exact i4)
    (by
      rintro done w a c ⟨⟨i1, i2, i3, i4⟩, ha⟩ hc
      obtain ⟨cl, hcl⟩ : ∃ cl, w.cliques[c]? = some cl := ⟨_, List.getElem?_eq_getElem hc⟩
      obtain ⟨n1, n2, n3⟩ := i2.clq c cl hcl
      have hret := Potential.retract_ok n2.wf.1 n3.wf.1 (n2.card_eq.trans n3.card_eq.symm)
      have hsk : ({ cliques := w.cliques.set c { cl with p := cl.orig }, sepsets := w.sepsets } : JTree K).skel = w.skel :=
        set_skel (cl' := { cl with p := cl.orig }) hcl rfl rfl
      refine ⟨{ cliques := w.cliques.set c { cl with p := cl.orig }, sepsets := w.sepsets }, a, ?_, ⟨⟨hsk.trans i1, ⟨?_, ?_⟩, ?_, ?_⟩, ha⟩, skel_shape hsk, ?_⟩
      · unfold retractClique
        rw [rd_eq_ok.mpr hcl, ok_bind, hret, ok_bind]
        simp only [wr_lt hc, ok_bind]
      · intro d dl hd
        simp only [List.getElem?_set] at hd
        split at hd
        · simp only [Option.some.injEq] at hd
          rw [← hd]; exact ⟨n1, n3, n3⟩
        · exact i2.clq d dl hd
      · intro s sp hs
        rw [skel_vars hsk, skel_vars hsk]
        exact i2.sep s sp hs
      · intro d dl hd hdl
        simp only [List.getElem?_set] at hdl
        split at hdl
        · simp only [Option.some.injEq] at hdl
          rw [← hdl]
        · rename_i hne
          refine i3 d dl ?_ hdl
          rcases List.mem_append.mp hd with h | h
          · exact h
          · simp at h; exact absurd h.symm hne
      · intro s sp hs hsp
        refine i4 s sp ?_ hsp
        rcases List.mem_append.mp hs with h | h
        · exact h
        · simp at h
      · intro x
        unfold markOf
        simp only [List.getElem?_set]
        by_cases e : c = x
        · subst e; rw [hcl]; simp [hc]
        · simp [e])
    (by
      rintro done w a s p q ⟨⟨i1, i2, i3, i4⟩, ha⟩ hj
      obtain ⟨sp, hsp, _⟩ := joins_sep hj
      obtain ⟨n1, n2, n3, n4, n5⟩ := i2.sep s sp hsp
      have hs : s < w.sepsets.length := (List.getElem?_eq_some_iff.mp hsp).1
      have hsk : ({ cliques := w.cliques, sepsets := w.sepsets.set s { sp with old := ones K card sp.vars, new := ones K card sp.vars } } : JTree K).skel = w.skel := by
        have := set_sep_skel hsp (sp' := { sp with old := ones K card sp.vars, new := ones K card sp.vars }) rfl
        unfold skel
        simp only [this]
      refine ⟨{ cliques := w.cliques, sepsets := w.sepsets.set s { sp with old := ones K card sp.vars, new := ones K card sp.vars } }, a, ?_, ⟨⟨hsk.trans i1, ⟨?_, ?_⟩, ?_, ?_⟩, ha⟩, skel_shape hsk, ?_⟩
      · unfold retractSepset
        simp only [rd_eq_ok.mpr hsp, ok_bind, wr_lt hs, uniform_ones n2, uniform_ones n3]
      · exact i2.clq
      · intro s' sp' hs'
        rw [skel_vars hsk, skel_vars hsk]
        simp only [List.getElem?_set] at hs'
        split at hs'
        · simp only [Option.some.injEq] at hs'
          rw [← hs']; exact ⟨n1, ones_on n2.pos, ones_on n2.pos, n4, n5⟩
        · exact i2.sep s' sp' hs'
      · intro d dl hd hdl
        refine i3 d dl ?_ hdl
        rcases List.mem_append.mp hd with h | h
        · exact h
        · simp at h
      · intro s' sp' hd hs'
        simp only [List.getElem?_set] at hs'
        split at hs'
        · simp only [Option.some.injEq] at hs'
          rw [← hs']; exact ⟨rfl, rfl⟩
        · rename_i hne
          refine i4 s' sp' ?_ hs'
          rcases List.mem_append.mp hd with h | h
          · exact h
          · simp at h; exact absurd h.symm hne
      · intro x; rfl) (t.cliques.length + 1) t.bare 0 none 0 F [] ⟨⟨bare_skel t, ht.bare, by simp, by simp⟩, rfl⟩ (hF.sub.shape (bare_shape t)) hFlen
      (fun x _ => bare_mark t x) (by intro s h; cases h)
  rw [h1]
  simp only at h3a
  rw [h3a]
  have hlen : t'.cliques.length = t.cliques.length := skel_len h3.skel
  have hslen : t'.sepsets.length = t.sepsets.length := skel_slen h3.skel
  have : t' = retracted card t := by
    have ec : t'.cliques = (retracted card t).cliques := by
      apply List.ext_getElem?
      intro i
      have hsk := skel_clique h3.skel i
      unfold retracted
      simp only [List.getElem?_map]
      by_cases hi : i < t.cliques.length
      · obtain ⟨cl, hcl⟩ : ∃ cl, t.cliques[i]? = some cl := ⟨_, List.getElem?_eq_getElem hi⟩
        obtain ⟨cl', hcl'⟩ : ∃ cl, t'.cliques[i]? = some cl := ⟨_, List.getElem?_eq_getElem (by omega)⟩
        rw [hcl, hcl'] at hsk ⊢
        simp only [Option.map_some, Option.some.injEq, Prod.mk.injEq] at hsk ⊢
        have hp := h3.clq i cl' (by
          have := (hF.nodes i).mpr hi
          rcases List.mem_cons.mp this with h | h
          · rw [h]; simp
          · simp [events_clq, h]) hcl'
        have hm : cl'.mark = true := by
          have := h4 i
          rw [bare_mark] at this
          unfold markOf at this
          rw [hcl'] at this
          simp only [Bool.false_or] at this
          rw [this, decide_eq_true_iff]; exact (hF.nodes i).mpr hi
        obtain ⟨a1, a2, a3⟩ := hsk
        cases cl'
        simp only at hp hm a1 a2 a3
        simp only [Clique.mk.injEq]
        exact ⟨a1, hp.trans a2, a2, a3, hm⟩
      · rw [List.getElem?_eq_none (by omega), List.getElem?_eq_none (by omega)]; rfl
    have es : t'.sepsets = (retracted card t).sepsets := by
      apply List.ext_getElem?
      intro i
      have hsk := skel_sep h3.skel i
      unfold retracted
      simp only [List.getElem?_map]
      by_cases hi : i < t.sepsets.length
      · obtain ⟨sp, hsp⟩ : ∃ sp, t.sepsets[i]? = some sp := ⟨_, List.getElem?_eq_getElem hi⟩
        obtain ⟨sp', hsp'⟩ : ∃ sp, t'.sepsets[i]? = some sp := ⟨_, List.getElem?_eq_getElem (by omega)⟩
        rw [hsp, hsp'] at hsk ⊢
        simp only [Option.map_some, Option.some.injEq, Prod.mk.injEq] at hsk ⊢
        obtain ⟨p1, p2⟩ := h3.sep i sp' (by
          have := (hF.seps i).mpr hi
          simp [events_sep, this]) hsp'
        obtain ⟨a1, a2, a3⟩ := hsk
        cases sp'
        simp only at p1 p2 a1 a2 a3
        simp only [Sepset.mk.injEq]
        exact ⟨a1, by rw [p1, a1], by rw [p2, a1], a2, a3⟩
      · rw [List.getElem?_eq_none (by omega), List.getElem?_eq_none (by omega)]; rfl
    cases t'
    simp only at ec es
    rw [ec, es]
  rw [this]

/-- sum of the table of a clique, minus the sum of the table of a separator -/
def evMass {K : Type} [Field K] [LinearOrder K] [IsStrictOrderedRing K] (t : JTree K) : Ev → K
  | .clq c => match t.cliques[c]? with
    | some cl => cl.p.data.sum
    | none => 0
  | .sep s => match t.sepsets[s]? with
    | some sp => -sp.new.data.sum
    | none => 0

theorem evMass_bare {K : Type} [Field K] [LinearOrder K] [IsStrictOrderedRing K] {t t' : JTree K} (h : t'.bare = t.bare) (e : Ev) : t'.evMass e = t.evMass e := by
  have key : ∀ w : JTree K, w.bare.evMass e = w.evMass e := by
    intro w
    cases e with
    | clq c => unfold evMass JTree.bare; simp only [List.getElem?_map]; cases w.cliques[c]? <;> rfl
    | sep s => rfl
  rw [← key t', h, key]

theorem mass_loop {K : Type} [Field K] [LinearOrder K] [IsStrictOrderedRing K] (xs : List K) : loop xs.length (fun i m => do let a ← rd xs i; ok (m + a)) (0 : K) = ok xs.sum := by
  rw [Potential.loop_sum (s := fun i => xs.getD i 0)]
  · rw [zero_add]
    congr 1
    rw [← sum_range_list]
    congr 1
    apply List.ext_getElem
    · simp
    · intro i h1 h2
      simp at h1
      simp [h1]
  · intro i hi m
    rw [rd_lt hi, ok_bind, List.getD_eq_getElem _ _ hi]

theorem mass_spec {K : Type} [Field K] [LinearOrder K] [IsStrictOrderedRing K] {t : JTree K} {L : List (Nat × Nat)} (hg : t.Good card L) (ht : Typed card t) :
    ∃ t', t.probabilityMass = ok (∑ c ∈ Finset.range t.cliques.length, t.evMass (.clq c) + ∑ s ∈ Finset.range t.sepsets.length, t.evMass (.sep s), t') ∧
      t'.bare = t.bare ∧ ∀ c, t'.markOf c = decide (c < t.cliques.length) := by
  have h0 : 0 < t.cliques.length := by have := hg.len; omega
  obtain ⟨F, hF⟩ := hg.rooted ht h0
  have hFlen : F.nodes.length < t.bare.cliques.length + 1 := by
    have h1 : (0 :: F.nodes).toFinset = Finset.range t.cliques.length := by
      ext x; rw [List.mem_toFinset, Finset.mem_range]; exact hF.nodes x
    have h2 := congrArg Finset.card h1
    rw [List.toFinset_card_of_nodup hF.dist.nodes, Finset.card_range, List.length_cons] at h2
    rw [(bare_shape t).len]
    omega
  obtain ⟨t', a', h1, h2, ⟨h3, h3a⟩, h4⟩ := dfs_spec cliqueMass negSepsetMass (fun done st => st.1.bare = t.bare ∧ st.2 = (done.map t.evMass).sum)
    (by
      rintro done w w' a ⟨i1, i2⟩ hb
      exact ⟨hb.trans i1, i2⟩)
    (by
      rintro done w a c ⟨i1, i2⟩ hc
      refine ⟨w, a + t.evMass (.clq c), ?_, ⟨i1, ?_⟩, SameShape.rfl' w, fun x => rfl⟩
      · unfold cliqueMass
        rw [rd_lt hc, ok_bind]
        have e : t.evMass (.clq c) = (w.cliques[c]).p.data.sum := by
          rw [← evMass_bare i1]; unfold evMass; simp only; rw [List.getElem?_eq_getElem hc]
        rw [e]
        have := mass_loop (w.cliques[c]).p.data
        unfold Potential.size
        rw [this, ok_bind]
      · simp only at i2 ⊢
        rw [i2]; simp)
    (by
      rintro done w a s p q ⟨i1, i2⟩ hj
      obtain ⟨sp, hsp, _⟩ := joins_sep hj
      refine ⟨w, a + t.evMass (.sep s), ?_, ⟨i1, ?_⟩, SameShape.rfl' w, fun x => rfl⟩
      · unfold negSepsetMass
        rw [rd_eq_ok.mpr hsp, ok_bind]
        have e : t.evMass (.sep s) = -sp.new.data.sum := by
          rw [← evMass_bare i1]; unfold evMass; simp only; rw [hsp]
        rw [e]
        have := mass_loop sp.new.data
        unfold Potential.size
        rw [this, ok_bind, sub_eq_add_neg]
      · simp only at i2 ⊢
        rw [i2]; simp)
    (t.bare.cliques.length + 1) t.bare 0 none 0 F [] ⟨bare_bare t, rfl⟩ (hF.sub.shape (bare_shape t)) hFlen
      (fun x _ => bare_mark t x) (by intro s h; cases h)
  simp only [List.nil_append] at h3 h3a
  refine ⟨t', ?_, h3, ?_⟩
  · unfold probabilityMass
    rw [unmarkAll_eq, ok_bind, h1, ok_bind]
    simp only
    rw [h3a]
    have key : ∀ G : Forest, ((events G).map t.evMass).sum = (G.nodes.map (fun c => t.evMass (.clq c))).sum + (G.seps.map (fun s => t.evMass (.sep s))).sum := by
      intro G
      induction G with
      | nil => simp [events, Forest.nodes, Forest.seps]
      | cons s d k r ih1 ih2 =>
        simp only [events, Forest.nodes, Forest.seps, List.map_cons, List.map_append, List.sum_cons, List.sum_append, ih1, ih2]
        ring
    rw [List.map_cons, List.sum_cons, key, ← add_assoc]
    have e1 : ∑ c ∈ Finset.range t.cliques.length, t.evMass (.clq c) = ((0 :: F.nodes).map (fun c => t.evMass (.clq c))).sum := by
      have : Finset.range t.cliques.length = (0 :: F.nodes).toFinset := by ext y; rw [List.mem_toFinset, hF.nodes, Finset.mem_range]
      rw [this, List.sum_toFinset _ hF.dist.nodes]
    have e2 : ∑ s ∈ Finset.range t.sepsets.length, t.evMass (.sep s) = (F.seps.map (fun s => t.evMass (.sep s))).sum := by
      have : Finset.range t.sepsets.length = F.seps.toFinset := by ext y; rw [List.mem_toFinset, hF.seps, Finset.mem_range]
      rw [this, List.sum_toFinset _ hF.dist.seps]
    rw [e1, e2, List.map_cons, List.sum_cons]
  · intro c
    rw [h4, bare_mark]
    simp only [Bool.false_or]
    exact decide_eq_decide.mpr (hF.nodes c)

/-- **the mass of a tree whose neighbours agree is the total of the represented function** -/
theorem mass_total {K : Type} [Field K] [LinearOrder K] [IsStrictOrderedRing K] {t : JTree K} {L : List (Nat × Nat)} (hg : t.Good card L) (ht : Typed card t) (hn : Nonneg card t)
    (ha : Agrees card t (t.st card)) {T : Asg → K} (hT : Repr t.cliques.length t.sepsets.length (t.st card) T) {U : List Nat} (hU : U.Nodup)
    (hUV : ∀ v, v ∈ U ↔ ∃ e, e < t.cliques.length ∧ v ∈ t.varsOf e) (x : Asg) :
    ∃ t', t.probabilityMass = ok (sumOver card U T x, t') ∧ t'.bare = t.bare ∧ ∀ c, t'.markOf c = decide (c < t.cliques.length) := by
  obtain ⟨t', h1, h2, h3⟩ := mass_spec hg ht
  refine ⟨t', ?_, h2, h3⟩
  rw [h1]
  have hsl : t.sepsets.length + 1 = t.cliques.length := by
    have := congrArg List.length hg.kinv.ends
    have hl := hg.len
    simp at this; omega
  have hc : ∀ c, c < t.cliques.length → sumOver card (t.varsOf c) (t.phi card c) x = sumOver card U T x := by
    intro c hc
    rw [sumOver_congr' (marginal hg ht hn ha hT hU hUV hc), ← sumOver_append]
    apply sumOver_perm
    rw [List.perm_ext_iff_of_nodup _ hU]
    · intro v
      rw [List.mem_append, mem_without]
      constructor
      · rintro (h | h)
        · exact (hUV v).mpr ⟨c, hc, h⟩
        · exact h.1
      · intro h
        by_cases hv : v ∈ t.varsOf c
        · exact Or.inl hv
        · exact Or.inr ⟨h, hv⟩
    · rw [List.nodup_append]
      refine ⟨ht.nodup c, hU.filter _, ?_⟩
      rintro v hv w hw rfl
      exact (mem_without.mp hw).2 hv
  have e1 : ∀ c ∈ Finset.range t.cliques.length, t.evMass (.clq c) = sumOver card U T x := by
    intro c hcr
    rw [Finset.mem_range] at hcr
    rw [← hc c hcr]
    unfold evMass phi varsOf
    simp only
    rw [List.getElem?_eq_getElem hcr]
    obtain ⟨n1, n2, _⟩ := ht.clq c _ (List.getElem?_eq_getElem hcr)
    exact data_sum n1 n2 x
  have e2 : ∀ s ∈ Finset.range t.sepsets.length, t.evMass (.sep s) = -sumOver card U T x := by
    intro s hs
    rw [Finset.mem_range] at hs
    obtain ⟨sp, hsp⟩ : ∃ sp, t.sepsets[s]? = some sp := ⟨_, List.getElem?_eq_getElem hs⟩
    obtain ⟨n1, n2, n3, n4, n5⟩ := ht.sep s sp hsp
    have hj : Joins t s sp.first sp.second := by
      left; unfold ends; rw [hsp]; rfl
    have hfl : sp.first < t.cliques.length := by
      have hm : (sp.first, sp.second) ∈ t.sepsets.map (fun s => (s.first, s.second)) :=
        List.mem_map.mpr ⟨sp, List.mem_of_getElem? hsp, rfl⟩
      rw [hg.kinv.ends, List.mem_reverse] at hm
      exact (hg.kinv.range _ hm).1
    have hψ := (ha s _ _ hj).1
    have e3 : sem card sp.vars sp.new = t.psi card s := by funext y; unfold psi; rw [hsp]
    unfold evMass
    simp only
    rw [hsp]
    simp only
    rw [data_sum n1 n3 x, e3, show t.psi card s = (t.st card).ψ s from rfl, hψ, ← hc _ hfl]
    unfold mg
    rw [← sumOver_append, sepVars_eq hsp]
    congr 1
    apply sumOver_perm
    rw [List.perm_ext_iff_of_nodup _ (ht.nodup _)]
    · intro v
      rw [List.mem_append, mem_without]
      constructor
      · rintro (h | h)
        · exact n4 h
        · exact h.1
      · intro h
        by_cases hv : v ∈ sp.vars
        · exact Or.inl hv
        · exact Or.inr ⟨h, hv⟩
    · rw [List.nodup_append]
      refine ⟨n1, (ht.nodup _).filter _, ?_⟩
      rintro v hv w hw rfl
      exact (mem_without.mp hw).2 hv
  rw [Finset.sum_congr rfl e1, Finset.sum_congr rfl e2, Finset.sum_const, Finset.sum_const, Finset.card_range, Finset.card_range, ← hsl]
  congr 2
  rw [succ_nsmul, smul_neg]
  ring

end JTree
end Nip
