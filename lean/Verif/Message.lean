import Verif.Sem
import Verif.TreeLemmas

/-! # Messages as operations on functions of assignments -/

namespace Nip

open Res Spec

set_option linter.unusedSectionVars false

/-- the contents of the cliques and of the separators -/
structure St (K : Type) where
  φ : Nat → Asg → K
  ψ : Nat → Asg → K

theorem St.ext' {K : Type} {a b : St K} (h1 : ∀ c x, a.φ c x = b.φ c x) (h2 : ∀ s x, a.ψ s x = b.ψ s x) : a = b := by
  cases a; cases b
  congr 1
  · funext c x; exact h1 c x
  · funext s x; exact h2 s x

variable {K : Type} [Zero K] [One K] [Add K] [_root_.Sub K] [Mul K] [Div K] [LinearOrder K] {card : Nat → Nat}

/-- the variables of `A` that are not in `B` -/
def without (A B : List Nat) : List Nat := A.filter (· ∉ B)

theorem mem_without {A B : List Nat} {v : Nat} : v ∈ without A B ↔ v ∈ A ∧ v ∉ B := by simp [without]

/-- a message -/
def msg {K : Type} [Field K] [LinearOrder K] (card : Nat → Nat) (V S : Nat → List Nat) (σ : St K) (m : Nat × Nat × Nat) : St K :=
  let a := m.1; let s := m.2.1; let b := m.2.2
  let ψ' := sumOver card (without (V a) (S s)) (σ.φ a)
  { φ := Function.update σ.φ b (fun x => if σ.ψ s x = 0 then 0 else σ.φ b x * ψ' x / σ.ψ s x)
    ψ := Function.update σ.ψ s ψ' }

theorem mapper_places {set subset : List Nat} (hn : subset.Nodup) (hsub : subset ⊆ set) :
    ∃ o, mapper set subset = ok (0, o) ∧ o.getD [] = places set subset := by
  by_cases h : subset = []
  · subst h; exact ⟨none, rfl, rfl⟩
  · obtain ⟨m, h1, h2⟩ := mapper_eq set subset hsub h (hn.subperm hsub).length_le
    exact ⟨some m, h1, h2⟩

namespace JTree

/-- everything except the marks and the tables in use -/
def skel (t : JTree K) : List (List Nat × Potential K × List Nat) × List (List Nat × Nat × Nat) :=
  (t.cliques.map (fun c => (c.vars, c.orig, c.sepsets)), t.sepsets.map (fun s => (s.vars, s.first, s.second)))

def sepVars (t : JTree K) (s : Nat) : List Nat :=
  match t.sepsets[s]? with
  | some sp => sp.vars
  | none => []

def phi (card : Nat → Nat) (t : JTree K) (c : Nat) (x : Asg) : K :=
  match t.cliques[c]? with
  | some cl => sem card cl.vars cl.p x
  | none => 1

def psi (card : Nat → Nat) (t : JTree K) (s : Nat) (x : Asg) : K :=
  match t.sepsets[s]? with
  | some sp => sem card sp.vars sp.new x
  | none => 1

def st (card : Nat → Nat) (t : JTree K) : St K := ⟨t.phi card, t.psi card⟩

theorem skel_clique {t t' : JTree K} (h : t'.skel = t.skel) (c : Nat) :
    (t'.cliques[c]?).map (fun c => (c.vars, c.orig, c.sepsets)) = (t.cliques[c]?).map (fun c => (c.vars, c.orig, c.sepsets)) := by
  have := congrArg (fun l => l[c]?) (congrArg Prod.fst h)
  simpa [skel] using this

theorem skel_sep {t t' : JTree K} (h : t'.skel = t.skel) (s : Nat) :
    (t'.sepsets[s]?).map (fun s => (s.vars, s.first, s.second)) = (t.sepsets[s]?).map (fun s => (s.vars, s.first, s.second)) := by
  have := congrArg (fun l => l[s]?) (congrArg Prod.snd h)
  simpa [skel] using this

theorem skel_len {t t' : JTree K} (h : t'.skel = t.skel) : t'.cliques.length = t.cliques.length := by
  have := congrArg List.length (congrArg Prod.fst h)
  simpa [skel] using this

theorem skel_slen {t t' : JTree K} (h : t'.skel = t.skel) : t'.sepsets.length = t.sepsets.length := by
  have := congrArg List.length (congrArg Prod.snd h)
  simpa [skel] using this

theorem skel_vars {t t' : JTree K} (h : t'.skel = t.skel) (c : Nat) : t'.varsOf c = t.varsOf c := by
  have := skel_clique h c
  unfold varsOf
  cases h1 : t'.cliques[c]? <;> cases h2 : t.cliques[c]? <;> rw [h1, h2] at this <;> simp at this
  exact this.1

theorem skel_sepVars {t t' : JTree K} (h : t'.skel = t.skel) (s : Nat) : t'.sepVars s = t.sepVars s := by
  have := skel_sep h s
  unfold sepVars
  cases h1 : t'.sepsets[s]? <;> cases h2 : t.sepsets[s]? <;> rw [h1, h2] at this <;> simp at this
  exact this.1

theorem skel_shape {t t' : JTree K} (h : t'.skel = t.skel) : SameShape t t' := by
  refine ⟨skel_len h, ?_, ?_⟩
  · intro c
    have := skel_clique h c
    unfold adj
    cases h1 : t'.cliques[c]? <;> cases h2 : t.cliques[c]? <;> rw [h1, h2] at this <;> simp at this
    exact this.2.2
  · intro s
    have := skel_sep h s
    unfold ends
    cases h1 : t'.sepsets[s]? <;> cases h2 : t.sepsets[s]? <;> rw [h1, h2] at this <;> simp at this
    simp [this.2]

theorem bare_skel (t : JTree K) : t.bare.skel = t.skel := by
  unfold skel bare
  simp [Function.comp_def]

theorem skel_of_bare {t t' : JTree K} (h : t'.bare = t.bare) : t'.skel = t.skel := by
  rw [← bare_skel t', h, bare_skel]

theorem bare_st (t : JTree K) : t.bare.st card = t.st card := by
  refine St.ext' ?_ ?_
  · intro c x
    show phi card t.bare c x = phi card t c x
    unfold phi bare
    simp only [List.getElem?_map]
    cases t.cliques[c]? <;> rfl
  · intro s x; rfl

theorem st_of_bare {t t' : JTree K} (h : t'.bare = t.bare) : t'.st card = t.st card := by
  rw [← bare_st t', h, bare_st]

/-- tables have the shapes that go with the variables -/
structure Typed (card : Nat → Nat) (t : JTree K) : Prop where
  clq : ∀ (c : Nat) cl, t.cliques[c]? = some cl → cl.vars.Nodup ∧ TableOn card cl.vars cl.p ∧ TableOn card cl.vars cl.orig
  sep : ∀ (s : Nat) sp, t.sepsets[s]? = some sp → sp.vars.Nodup ∧ TableOn card sp.vars sp.old ∧ TableOn card sp.vars sp.new ∧
    sp.vars ⊆ t.varsOf sp.first ∧ sp.vars ⊆ t.varsOf sp.second

theorem Typed.bare {t : JTree K} (h : Typed card t) : Typed card t.bare := by
  refine ⟨?_, ?_⟩
  · intro c cl hc
    unfold JTree.bare at hc
    simp only [List.getElem?_map, Option.map_eq_some_iff] at hc
    obtain ⟨cl', h1, rfl⟩ := hc
    exact h.clq c cl' h1
  · intro s sp hs
    have := h.sep s sp hs
    rw [skel_vars (bare_skel t), skel_vars (bare_skel t)]
    exact this

theorem Typed.of_bare {t t' : JTree K} (h : Typed card t) (hb : t'.bare = t.bare) : Typed card t' := by
  have hv : ∀ c, t'.varsOf c = t.varsOf c := skel_vars (skel_of_bare hb)
  have hs : t'.sepsets = t.sepsets := by
    have := congrArg JTree.sepsets hb
    exact this
  refine ⟨?_, ?_⟩
  · intro c cl hc
    have h1 : t'.bare.cliques[c]? = some { cl with mark := false } := by
      unfold JTree.bare; simp [hc]
    rw [hb] at h1
    have := h.bare.clq c _ h1
    exact this
  · intro s sp h1
    rw [hs] at h1
    rw [hv, hv]
    exact h.sep s sp h1

theorem set_skel {t : JTree K} {c : Nat} {cl cl' : Clique K} (h : t.cliques[c]? = some cl)
    (h' : (cl'.vars, cl'.orig, cl'.sepsets) = (cl.vars, cl.orig, cl.sepsets)) {ss : List (Sepset K)}
    (hss : ss.map (fun s => (s.vars, s.first, s.second)) = t.sepsets.map (fun s => (s.vars, s.first, s.second))) :
    ({ cliques := t.cliques.set c cl', sepsets := ss } : JTree K).skel = t.skel := by
  unfold skel
  simp only
  rw [hss]
  congr 1
  apply List.ext_getElem?
  intro i
  rw [List.getElem?_map, List.getElem?_map, List.getElem?_set]
  split
  · rename_i e
    subst e
    have hlt : c < t.cliques.length := (List.getElem?_eq_some_iff.mp h).1
    rw [if_pos hlt, h, Option.map_some, Option.map_some, h']
  · rfl

theorem set_sep_skel {ss : List (Sepset K)} {s : Nat} {sp sp' : Sepset K} (h : ss[s]? = some sp)
    (h' : (sp'.vars, sp'.first, sp'.second) = (sp.vars, sp.first, sp.second)) :
    (ss.set s sp').map (fun s => (s.vars, s.first, s.second)) = ss.map (fun s => (s.vars, s.first, s.second)) := by
  apply List.ext_getElem?
  intro i
  rw [List.getElem?_map, List.getElem?_map, List.getElem?_set]
  split
  · rename_i e
    subst e
    have hlt : s < ss.length := (List.getElem?_eq_some_iff.mp h).1
    rw [if_pos hlt, h, Option.map_some, Option.map_some, h']
  · rfl

theorem varsOf_eq {t : JTree K} {c : Nat} {cl : Clique K} (h : t.cliques[c]? = some cl) : t.varsOf c = cl.vars := by
  unfold varsOf; rw [h]

theorem sepVars_eq {t : JTree K} {s : Nat} {sp : Sepset K} (h : t.sepsets[s]? = some sp) : t.sepVars s = sp.vars := by
  unfold sepVars; rw [h]

theorem joins_sep {t : JTree K} {s a b : Nat} (h : Joins t s a b) :
    ∃ sp, t.sepsets[s]? = some sp ∧ ((sp.first = a ∧ sp.second = b) ∨ (sp.first = b ∧ sp.second = a)) := by
  obtain ⟨sp, h1, h2⟩ := joins_rd h
  exact ⟨sp, rd_eq_ok.mp h1, h2⟩

theorem messagePass_eq {K : Type} [Field K] [LinearOrder K] {t : JTree K} (ht : Typed card t) {a s b : Nat} (hj : Joins t s a b) (ha : a < t.cliques.length)
    (hb : b < t.cliques.length) :
    ∃ t', t.messagePass a s b = ok (0, t') ∧ t'.skel = t.skel ∧ (∀ x, t'.markOf x = t.markOf x) ∧ Typed card t' ∧
      t'.st card = msg card t.varsOf t.sepVars (t.st card) (a, s, b) := by
  obtain ⟨sp, hsp, hends⟩ := joins_sep hj
  obtain ⟨hn, ho, hw, hs1, hs2⟩ := ht.sep s sp hsp
  have hsl : s < t.sepsets.length := (List.getElem?_eq_some_iff.mp hsp).1
  obtain ⟨ca, hca⟩ : ∃ ca, t.cliques[a]? = some ca := ⟨_, List.getElem?_eq_getElem ha⟩
  obtain ⟨cb, hcb⟩ : ∃ cb, t.cliques[b]? = some cb := ⟨_, List.getElem?_eq_getElem hb⟩
  obtain ⟨na, pa, oa⟩ := ht.clq a ca hca
  obtain ⟨nb, pb, ob⟩ := ht.clq b cb hcb
  have hsa : sp.vars ⊆ ca.vars := by
    rw [← varsOf_eq hca]
    rcases hends with ⟨e1, e2⟩ | ⟨e1, e2⟩
    · rw [← e1]; exact hs1
    · rw [← e2]; exact hs2
  have hsb : sp.vars ⊆ cb.vars := by
    rw [← varsOf_eq hcb]
    rcases hends with ⟨e1, e2⟩ | ⟨e1, e2⟩
    · rw [← e2]; exact hs2
    · rw [← e1]; exact hs1
  obtain ⟨oa', ma, mga⟩ := mapper_places hn hsa
  obtain ⟨ob', mb, mgb⟩ := mapper_places hn hsb
  have hia : Into ca.p.card (places ca.vars sp.vars) sp.old.card := by
    rw [pa.card_eq, ho.card_eq]; exact places_into hsa
  have hibn : Into cb.p.card (places cb.vars sp.vars) sp.new.card := by
    rw [pb.card_eq, hw.card_eq]; exact places_into hsb
  have hlena : sp.vars.length ≤ ca.vars.length := (hn.subperm hsa).length_le
  have hlenb : sp.vars.length ≤ cb.vars.length := (hn.subperm hsb).length_le
  have hspos := hw.pos
  -- the marginal
  obtain ⟨nw, hnw⟩ : ∃ nw, nw = Potential.ofFn sp.old.card (fun y => sumTuples ca.p.card (fun x => project (places ca.vars sp.vars) x = y) ca.p.at') :=
    ⟨_, rfl⟩
  have hmarg : Potential.generalMarginalise ca.p sp.old (places ca.vars sp.vars) = ok (0, nw) := by
    rw [hnw]
    exact Potential.generalMarginalise_ofFn pa.wf ho.wf hia (by rw [pa.card_eq, ho.card_eq]; simpa using hlena)
  have hnwon : TableOn card sp.vars nw := by rw [hnw, ho.card_eq]; exact ofFn_on hspos _
  have hnwsem : ∀ x, sem card sp.vars nw x = sumOver card (without ca.vars sp.vars) (sem card ca.vars ca.p) x := by
    intro x
    rw [hnw, ho.card_eq, sem_ofFn hspos]
    exact sumTuples_sem na hsa pa x
  have hibw : Into cb.p.card (places cb.vars sp.vars) nw.card := by
    rw [pb.card_eq, hnwon.card_eq]; exact places_into hsb
  obtain ⟨q, hq⟩ : ∃ q, q = Potential.ofFn cb.p.card (fun x => Potential.updCell (some nw) (some sp.new) (places cb.vars sp.vars) x (cb.p.at' x)) :=
    ⟨_, rfl⟩
  have hupd : Potential.update (some nw) (some sp.new) cb.p (places cb.vars sp.vars) = ok (0, q) := by
    rw [hq]
    refine Potential.update_ofFn pb.wf (Or.inl (by simp)) ?_ ?_ ?_
    · rintro _ ⟨rfl⟩; exact ⟨hnwon.wf, hibw⟩
    · rintro _ ⟨rfl⟩; exact ⟨hw.wf, hibn⟩
    · intro _ _; rw [pb.card_eq]; simpa [places] using hlenb
  have hqon : TableOn card cb.vars q := by rw [hq, pb.card_eq]; exact ofFn_on pb.pos _
  have hqsem : ∀ x, sem card cb.vars q x = if sem card sp.vars sp.new x = 0 then 0
      else sem card cb.vars cb.p x * sem card sp.vars nw x / sem card sp.vars sp.new x := by
    intro x
    rw [hq, pb.card_eq, sem_ofFn pb.pos]
    unfold Potential.updCell
    simp only [project_states hsb]
    rfl
  obtain ⟨t', ht'⟩ : ∃ t' : JTree K, t' = JTree.mk (t.cliques.set b { cb with p := q })
      (t.sepsets.set s { vars := sp.vars, old := sp.new, new := nw, first := sp.first, second := sp.second }) := ⟨_, rfl⟩
  have hskel : t'.skel = t.skel := by
    rw [ht']
    refine set_skel hcb ?_ (set_sep_skel hsp ?_) <;> rfl
  refine ⟨t', ?_, hskel, ?_, ?_, ?_⟩
  · unfold messagePass
    rw [rd_eq_ok.mpr hsp, ok_bind, rd_eq_ok.mpr hca, ok_bind]
    simp only [ma, ok_bind, mga, hmarg, wr_lt hsl, ne_eq, not_true, if_false, rd_eq_ok.mpr hcb, mb, mgb, hupd, wr_lt hb, ht']
  · intro x
    rw [ht']
    unfold markOf
    simp only
    rw [List.getElem?_set]
    by_cases e : b = x
    · subst e; rw [if_pos rfl, if_pos hb, hcb]
    · rw [if_neg e]
  · refine ⟨?_, ?_⟩
    · intro c cl hc
      rw [ht'] at hc
      simp only at hc
      rw [List.getElem?_set] at hc
      by_cases e : b = c
      · subst e
        rw [if_pos rfl, if_pos hb, Option.some.injEq] at hc
        rw [← hc]
        exact ⟨nb, hqon, ob⟩
      · rw [if_neg e] at hc
        exact ht.clq c cl hc
    · intro r rp hr
      rw [skel_vars hskel, skel_vars hskel]
      rw [ht'] at hr
      simp only at hr
      rw [List.getElem?_set] at hr
      by_cases e : s = r
      · subst e
        rw [if_pos rfl, if_pos hsl, Option.some.injEq] at hr
        rw [← hr]
        exact ⟨hn, hw, hnwon, hs1, hs2⟩
      · rw [if_neg e] at hr
        exact ht.sep r rp hr
  · have hpsi : ∀ x, t.psi card s x = sem card sp.vars sp.new x := by intro x; unfold psi; rw [hsp]
    have hphi : ∀ x, t.phi card b x = sem card cb.vars cb.p x := by intro x; unfold phi; rw [hcb]
    have hphia : t.phi card a = sem card ca.vars ca.p := by funext x; unfold phi; rw [hca]
    refine St.ext' ?_ ?_
    · intro c x
      show phi card t' c x = Function.update (t.phi card) b _ c x
      by_cases e : b = c
      · subst e
        rw [Function.update_self]
        show _ = if t.psi card s x = 0 then 0 else t.phi card b x * sumOver card (without (t.varsOf a) (t.sepVars s)) (t.phi card a) x / t.psi card s x
        rw [hpsi, hphi, hphia, varsOf_eq hca, sepVars_eq hsp, ← hnwsem, ← hqsem]
        rw [ht']; unfold phi; simp only; rw [List.getElem?_set, if_pos rfl, if_pos hb]
      · rw [Function.update_of_ne (fun e' => e e'.symm), ht']
        unfold phi; simp only; rw [List.getElem?_set, if_neg e]
    · intro r x
      show psi card t' r x = Function.update (t.psi card) s (sumOver card (without (t.varsOf a) (t.sepVars s)) (t.phi card a)) r x
      by_cases e : s = r
      · subst e
        rw [Function.update_self, hphia, varsOf_eq hca, sepVars_eq hsp, ← hnwsem]
        rw [ht']; unfold psi; simp only; rw [List.getElem?_set, if_pos rfl, if_pos hsl]
      · rw [Function.update_of_ne (fun e' => e e'.symm), ht']
        unfold psi; simp only; rw [List.getElem?_set, if_neg e]

end JTree
end Nip
