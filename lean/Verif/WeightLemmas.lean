import Mathlib.Algebra.Order.BigOperators.Ring.Finset
import Verif.History
import Verif.Spec.Weight

/-! # The weights held by a clique tree -/

namespace Nip

open Res Spec

set_option linter.unusedSectionVars false

variable {K : Type} [Field K] [LinearOrder K] [IsStrictOrderedRing K] {card : Nat → Nat}

theorem phi_cell (t : JTree K) (c : Nat) (x : Asg) : t.phi card c x = cliqueCell t c (wrap card x) := rfl

theorem psi_cell (t : JTree K) (s : Nat) (x : Asg) : t.psi card s x = sepCell t s (wrap card x) := rfl

theorem cliqueCell_congr {t : JTree K} {c : Nat} {x y : Asg} (h : ∀ v ∈ t.varsOf c, x v = y v) : cliqueCell t c x = cliqueCell t c y := by
  unfold cliqueCell
  unfold JTree.varsOf at h
  cases hc : t.cliques[c]? with
  | none => rfl
  | some cl =>
    rw [hc] at h
    simp only at h ⊢
    rw [List.map_congr_left h]

theorem sepCell_congr {t : JTree K} {s : Nat} {x y : Asg} (h : ∀ v ∈ t.sepVars s, x v = y v) : sepCell t s x = sepCell t s y := by
  unfold sepCell
  unfold JTree.sepVars at h
  cases hc : t.sepsets[s]? with
  | none => rfl
  | some cl =>
    rw [hc] at h
    simp only at h ⊢
    rw [List.map_congr_left h]

theorem tableFor_iff {vs : List Nat} {p : Potential K} : TableFor card vs p ↔ TableOn card vs p := by
  constructor
  · rintro ⟨h1, h2, h3⟩
    refine ⟨⟨h2, ?_⟩, h1⟩
    intro c hc
    rw [h1] at hc
    obtain ⟨v, hv, rfl⟩ := List.mem_map.mp hc
    exact h3 v hv
  · intro h; exact ⟨h.card_eq, h.wf.1, h.pos⟩

theorem shaped_typed {t : JTree K} (h : Shaped card t) : t.Typed card := by
  refine ⟨?_, ?_⟩
  · intro c cl hc
    obtain ⟨h1, h2, h3⟩ := h.clique cl (List.mem_of_getElem? hc)
    exact ⟨h1, tableFor_iff.mp h2, tableFor_iff.mp h3⟩
  · intro s sp hs
    obtain ⟨h1, h2, h3, a, b, h4, h5, h6, h7⟩ := h.sep sp (List.mem_of_getElem? hs)
    exact ⟨h1, tableFor_iff.mp h2, tableFor_iff.mp h3, by rw [JTree.varsOf_eq h4]; exact h6, by rw [JTree.varsOf_eq h5]; exact h7⟩

theorem typed_shaped {t : JTree K} (h : t.Typed card)
    (hr : ∀ sp ∈ t.sepsets, sp.first < t.cliques.length ∧ sp.second < t.cliques.length) : Shaped card t := by
  refine ⟨?_, ?_⟩
  · intro cl hcl
    obtain ⟨c, hc, e⟩ := List.getElem_of_mem hcl
    obtain ⟨h1, h2, h3⟩ := h.clq c cl (by rw [List.getElem?_eq_getElem hc, e])
    exact ⟨h1, tableFor_iff.mpr h2, tableFor_iff.mpr h3⟩
  · intro sp hsp
    obtain ⟨s, hs, e⟩ := List.getElem_of_mem hsp
    obtain ⟨h1, h2, h3, h4, h5⟩ := h.sep s sp (by rw [List.getElem?_eq_getElem hs, e])
    obtain ⟨r1, r2⟩ := hr sp hsp
    refine ⟨h1, tableFor_iff.mpr h2, tableFor_iff.mpr h3, _, _, List.getElem?_eq_getElem r1, List.getElem?_eq_getElem r2, ?_, ?_⟩
    · rw [JTree.varsOf_eq (List.getElem?_eq_getElem r1)] at h4; exact h4
    · rw [JTree.varsOf_eq (List.getElem?_eq_getElem r2)] at h5; exact h5

theorem legal_varsOf {t : JTree K} {x : Asg} (h : LegalFor card t x) {c v : Nat} (hv : v ∈ t.varsOf c) : x v < card v := by
  unfold JTree.varsOf at hv
  cases hc : t.cliques[c]? with
  | none => rw [hc] at hv; cases hv
  | some cl => rw [hc] at hv; exact h cl (List.mem_of_getElem? hc) v hv

theorem typed_pos {t : JTree K} (h : t.Typed card) {c v : Nat} (hv : v ∈ t.varsOf c) : 0 < card v := by
  unfold JTree.varsOf at hv
  cases hc : t.cliques[c]? with
  | none => rw [hc] at hv; cases hv
  | some cl => rw [hc] at hv; exact (h.clq c cl hc).2.1.pos v hv

theorem wrap_legal {t : JTree K} (h : t.Typed card) (x : Asg) : LegalFor card t (wrap card x) := by
  intro cl hcl v hv
  obtain ⟨c, hc, e⟩ := List.getElem_of_mem hcl
  exact Nat.mod_lt _ (typed_pos h (c := c) (v := v) (by rw [JTree.varsOf_eq (List.getElem?_eq_getElem hc), e]; exact hv))

theorem sepVars_sub {t : JTree K} (h : t.Typed card) {s v : Nat} (hv : v ∈ t.sepVars s) : ∃ c, v ∈ t.varsOf c := by
  unfold JTree.sepVars at hv
  cases hs : t.sepsets[s]? with
  | none => rw [hs] at hv; cases hv
  | some sp => rw [hs] at hv; exact ⟨sp.first, (h.sep s sp hs).2.2.2.1 hv⟩

theorem cliqueCell_phi {t : JTree K} {c : Nat} {x : Asg} (hx : ∀ v ∈ t.varsOf c, x v < card v) : cliqueCell t c x = t.phi card c x := by
  rw [phi_cell]
  exact cliqueCell_congr fun v hv => (Nat.mod_eq_of_lt (hx v hv)).symm

theorem sepCell_psi {t : JTree K} {s : Nat} {x : Asg} (hx : ∀ v ∈ t.sepVars s, x v < card v) : sepCell t s x = t.psi card s x := by
  rw [psi_cell]
  exact sepCell_congr fun v hv => (Nat.mod_eq_of_lt (hx v hv)).symm

theorem cliqueProduct_phi {t : JTree K} {x : Asg} (hx : LegalFor card t x) :
    cliqueProduct t x = ∏ c ∈ Finset.range t.cliques.length, t.phi card c x :=
  Finset.prod_congr rfl fun _ _ => cliqueCell_phi fun _ hv => legal_varsOf hx hv

theorem sepProduct_psi {t : JTree K} (h : t.Typed card) {x : Asg} (hx : LegalFor card t x) :
    sepProduct t x = ∏ s ∈ Finset.range t.sepsets.length, t.psi card s x :=
  Finset.prod_congr rfl fun _ _ => sepCell_psi fun _ hv => by
    obtain ⟨c, hc⟩ := sepVars_sub h hv
    exact legal_varsOf hx hc

theorem proper_nonneg {t : JTree K} (ht : t.Typed card) (h : Proper card t) : t.Nonneg card :=
  ⟨fun c x => by rw [phi_cell]; exact h.clique c _ (wrap_legal ht x), fun s x => by rw [psi_cell]; exact h.sep s _ (wrap_legal ht x)⟩

theorem proper_repr {t : JTree K} (ht : t.Typed card) (h : Proper card t) :
    Repr t.cliques.length t.sepsets.length (t.st card) (fun x => treeWeight t (wrap card x)) := by
  have e1 : ∀ x, ∏ c ∈ Finset.range t.cliques.length, (t.st card).φ c x = cliqueProduct t (wrap card x) := fun x => rfl
  have e2 : ∀ x, ∏ s ∈ Finset.range t.sepsets.length, (t.st card).ψ s x = sepProduct t (wrap card x) := fun x => rfl
  refine ⟨?_, ?_, ?_⟩
  · intro x
    rw [e1, e2]
    by_cases hz : sepProduct t (wrap card x) = 0
    · rw [h.support _ (wrap_legal ht x) hz, hz, mul_zero]
    · exact (div_mul_cancel₀ _ hz).symm
  · intro c hc x hx
    have : cliqueProduct t (wrap card x) = 0 := by rw [← e1]; exact Finset.prod_eq_zero (Finset.mem_range.mpr hc) hx
    show cliqueProduct t (wrap card x) / _ = 0
    rw [this, zero_div]
  · intro s hs x hx
    have : sepProduct t (wrap card x) = 0 := by rw [← e2]; exact Finset.prod_eq_zero (Finset.mem_range.mpr hs) hx
    show _ / sepProduct t (wrap card x) = 0
    rw [this, div_zero]

theorem repr_weight {t : JTree K} (ht : t.Typed card) {T : Asg → K} (h : Repr t.cliques.length t.sepsets.length (t.st card) T) {x : Asg}
    (hx : LegalFor card t x) : treeWeight t x = T x ∧ (sepProduct t x = 0 → cliqueProduct t x = 0) := by
  have h1 := h.prod x
  have e1 : ∏ c ∈ Finset.range t.cliques.length, (t.st card).φ c x = cliqueProduct t x := (cliqueProduct_phi hx).symm
  have e2 : ∏ s ∈ Finset.range t.sepsets.length, (t.st card).ψ s x = sepProduct t x := (sepProduct_psi ht hx).symm
  rw [e1, e2] at h1
  refine ⟨?_, ?_⟩
  · unfold treeWeight
    by_cases hz : sepProduct t x = 0
    · rw [hz, div_zero]
      rw [← e2, Finset.prod_eq_zero_iff] at hz
      obtain ⟨s, hs, hz⟩ := hz
      exact (h.zψ s (Finset.mem_range.mp hs) x hz).symm
    · rw [h1, mul_div_cancel_right₀ _ hz]
  · intro hz; rw [h1, hz, mul_zero]

theorem nonneg_proper {t : JTree K} (ht : t.Typed card) (hn : t.Nonneg card) {T : Asg → K}
    (h : Repr t.cliques.length t.sepsets.length (t.st card) T) : Proper card t := by
  refine ⟨?_, ?_, fun x hx => (repr_weight ht h hx).2⟩
  · intro c x hx; rw [cliqueCell_phi fun _ hv => legal_varsOf hx hv]; exact hn.φ c x
  · intro s x hx
    rw [sepCell_psi fun _ hv => by obtain ⟨c, hc⟩ := sepVars_sub ht hv; exact legal_varsOf hx hc]; exact hn.ψ s x

/-- the effect of a message on the weights -/
theorem message_weight {t : JTree K} (hs : Shaped card t) (hp : Proper card t) {s : Nat} {sp : Sepset K} (hsp : t.sepsets[s]? = some sp) {a b : Nat}
    (hab : (a = sp.first ∧ b = sp.second) ∨ (a = sp.second ∧ b = sp.first)) :
    ∃ t', t.messagePass a s b = ok (0, t') ∧ t'.skel = t.skel ∧ Shaped card t' ∧ Proper card t' ∧ ∀ x, LegalFor card t x → treeWeight t' x = treeWeight t x := by
  have ht := shaped_typed hs
  obtain ⟨_, _, _, ca, cb, h4, h5, _, _⟩ := hs.sep sp (List.mem_of_getElem? hsp)
  have hf : sp.first < t.cliques.length := (List.getElem?_eq_some_iff.mp h4).1
  have hse : sp.second < t.cliques.length := (List.getElem?_eq_some_iff.mp h5).1
  have ha : a < t.cliques.length := by rcases hab with ⟨rfl, _⟩ | ⟨rfl, _⟩ <;> assumption
  have hb : b < t.cliques.length := by rcases hab with ⟨_, rfl⟩ | ⟨_, rfl⟩ <;> assumption
  have hends : t.ends s = some (sp.first, sp.second) := by unfold JTree.ends; rw [hsp]; rfl
  have hj : t.Joins s a b := by
    unfold JTree.Joins
    rw [hends]
    rcases hab with ⟨rfl, rfl⟩ | ⟨rfl, rfl⟩
    · exact Or.inl rfl
    · exact Or.inr rfl
  obtain ⟨t', m1, m2, m3, m4, m5⟩ := JTree.messagePass_eq ht hj ha hb
  have hr := ht.reg (proper_nonneg ht hp)
  have hslt : s < t.sepsets.length := (List.getElem?_eq_some_iff.mp hsp).1
  have hrep := (proper_repr ht hp).msg hr ha hslt hb
  rw [← m5] at hrep
  have hsub : t.sepVars s ⊆ t.varsOf b := by
    rw [JTree.sepVars_eq hsp]
    obtain ⟨_, _, _, g4, g5⟩ := ht.sep s sp hsp
    rcases hab with ⟨_, rfl⟩ | ⟨_, rfl⟩ <;> assumption
  have hr' := hr.msg (a := a) (s := s) (b := b) hsub
  rw [← m5] at hr'
  have hn' : t'.Nonneg card := ⟨hr'.φn, hr'.ψn⟩
  have hlegal : ∀ x, LegalFor card t x → LegalFor card t' x := by
    intro x hx cl hcl
    obtain ⟨c, hc, e⟩ := List.getElem_of_mem hcl
    intro v hv
    refine legal_varsOf hx (c := c) ?_
    rw [← JTree.skel_vars m2, JTree.varsOf_eq (List.getElem?_eq_getElem hc), e]; exact hv
  rw [← JTree.skel_len m2, ← JTree.skel_slen m2] at hrep
  refine ⟨t', m1, m2, typed_shaped m4 ?_, nonneg_proper m4 hn' hrep, ?_⟩
  · intro sp' hsp'
    obtain ⟨s', hs', e'⟩ := List.getElem_of_mem hsp'
    have hh := JTree.skel_sep m2 s'
    rw [List.getElem?_eq_getElem hs', e'] at hh
    cases h2 : t.sepsets[s']? with
    | none => rw [h2] at hh; simp at hh
    | some sp2 =>
      rw [h2] at hh
      simp only [Option.map_some, Option.some.injEq, Prod.mk.injEq] at hh
      obtain ⟨_, _, _, ca, cb, h4, h5, _, _⟩ := hs.sep sp2 (List.mem_of_getElem? h2)
      rw [hh.2.1, hh.2.2, JTree.skel_len m2]
      exact ⟨(List.getElem?_eq_some_iff.mp h4).1, (List.getElem?_eq_some_iff.mp h5).1⟩
  · intro x hx
    rw [(repr_weight m4 hrep (hlegal x hx)).1]
    have : ∀ v, v ∈ t.sepVars 0 → True := fun _ _ => trivial
    have e1 : cliqueProduct t (wrap card x) = cliqueProduct t x :=
      Finset.prod_congr rfl fun c _ => cliqueCell_congr fun v hv => Nat.mod_eq_of_lt (legal_varsOf hx hv)
    have e2 : sepProduct t (wrap card x) = sepProduct t x :=
      Finset.prod_congr rfl fun s _ => sepCell_congr fun v hv => by
        obtain ⟨c, hc⟩ := sepVars_sub ht hv
        exact Nat.mod_eq_of_lt (legal_varsOf hx hc)
    show cliqueProduct t (wrap card x) / sepProduct t (wrap card x) = _
    rw [e1, e2]; rfl

namespace Model

theorem Holds.legal {net : Net K} {m : Model K} {w : World K} (h : Holds net m w) {x : Asg} : LegalFor net.card m.tree x ↔ Legal net.card net.vars x := by
  constructor
  · intro hx v hv
    obtain ⟨c, _, hc⟩ := (h.sound.cover v).mp hv
    exact legal_varsOf hx hc
  · intro hx cl hcl v hv
    obtain ⟨c, hc, e⟩ := List.getElem_of_mem hcl
    refine hx v (h.sound.varsOf_sub (c := c) v ?_)
    rw [JTree.varsOf_eq (List.getElem?_eq_getElem hc), e]; exact hv

theorem Holds.range {net : Net K} {m : Model K} {w : World K} (h : Holds net m w) :
    ∀ sp ∈ m.tree.sepsets, sp.first < m.tree.cliques.length ∧ sp.second < m.tree.cliques.length := by
  intro sp hsp
  obtain ⟨L, hL⟩ := h.sound.good
  refine hL.kinv.range (sp.first, sp.second) ?_
  have : (sp.first, sp.second) ∈ L.reverse := by rw [← hL.kinv.ends]; exact List.mem_map.mpr ⟨sp, hsp, rfl⟩
  simpa using this

theorem Holds.weight {net : Net K} (hl : Local net) {m : Model K} {w : World K} (h : Holds net m w) :
    Shaped net.card m.tree ∧ Proper net.card m.tree ∧ ∀ x, Legal net.card net.vars x → treeWeight m.tree x = jointWeight net w x := by
  refine ⟨typed_shaped h.sound.typed h.range, nonneg_proper h.sound.typed h.sound.nonneg h.reps, ?_⟩
  intro x hx
  rw [(repr_weight h.sound.typed h.reps (h.legal.mpr hx)).1]
  exact repd_legal hl w hx

theorem Holds.nonneg {net : Net K} {m : Model K} {w : World K} (h : Holds net m w) (x : Asg) : 0 ≤ repd net w x := by
  have hp := h.reps.prod x
  by_cases hz : ∏ s ∈ Finset.range m.tree.sepsets.length, (m.tree.st net.card).ψ s x = 0
  · rw [Finset.prod_eq_zero_iff] at hz
    obtain ⟨s, hs, hz⟩ := hz
    rw [h.reps.zψ s (Finset.mem_range.mp hs) x hz]
  · have h1 : 0 ≤ ∏ c ∈ Finset.range m.tree.cliques.length, (m.tree.st net.card).φ c x := Finset.prod_nonneg fun c _ => h.sound.nonneg.φ c x
    have h2 : 0 ≤ ∏ s ∈ Finset.range m.tree.sepsets.length, (m.tree.st net.card).ψ s x := Finset.prod_nonneg fun c _ => h.sound.nonneg.ψ c x
    rw [eq_div_of_mul_eq hz hp.symm]
    exact div_nonneg h1 h2

theorem Holds.cell {net : Net K} (hl : Local net) {m : Model K} {w : World K} (h : Holds net m w)
    (ha : m.tree.Agrees net.card (m.tree.st net.card)) {c : Nat} (hc : c < m.tree.cliques.length) {x : Asg} (hx : Legal net.card net.vars x) :
    cliqueCell m.tree c x = marginalWeight net w (m.tree.varsOf c) x := by
  rw [cliqueCell_phi fun v hv => hx v (h.sound.varsOf_sub v hv), h.clique ha hc]
  exact repd_sum hl w _ fun v hv _ => hx v hv

theorem Holds.sepcell {net : Net K} (hl : Local net) {m : Model K} {w : World K} (h : Holds net m w)
    (ha : m.tree.Agrees net.card (m.tree.st net.card)) {s a b : Nat} (hj : m.tree.Joins s a b) (haL : a < m.tree.cliques.length)
    (hsub : m.tree.sepVars s ⊆ m.tree.varsOf a) {x : Asg} (hx : Legal net.card net.vars x) :
    sepCell m.tree s x = marginalWeight net w (m.tree.sepVars s) x ∧
    sepCell m.tree s x = sumOver net.card ((m.tree.varsOf a).filter (· ∉ m.tree.sepVars s)) (cliqueCell m.tree a) x := by
  have e : sepCell m.tree s x = m.tree.psi net.card s x := sepCell_psi fun v hv => hx v (h.sound.varsOf_sub v (hsub hv))
  have e2 : m.tree.psi net.card s x = mg net.card m.tree.varsOf m.tree.sepVars (m.tree.st net.card) a s x := congrFun (ha s a b hj).1 x
  constructor
  · rw [e, e2]
    show sumOver net.card (without (m.tree.varsOf a) (m.tree.sepVars s)) (m.tree.phi net.card a) x = _
    rw [h.part ha haL (fun v hv => hsub hv)]
    exact repd_sum hl w _ fun v hv _ => hx v hv
  · rw [e, e2]
    show sumOver net.card (without (m.tree.varsOf a) (m.tree.sepVars s)) (m.tree.phi net.card a) x = _
    refine sumOver_legal (U := net.vars) ?_ _ _ (fun v hv _ => hx v hv)
    intro z hz
    exact (cliqueCell_phi fun v hv => hz v (h.sound.varsOf_sub v hv)).symm

end Model

/-! ### what histories say -/

theorem step_evidence {net : Net K} (w : World K) {op : Op K} (h : op ≠ .reset) (v : Nat) :
    (w.step net op).evidence v = (op.vector net v).getD (w.evidence v) := by
  cases op with
  | evidence u e =>
    show Function.update w.evidence u e v = _
    unfold Op.vector
    by_cases hu : u = v
    · subst hu; simp
    · rw [Function.update_of_ne (Ne.symm hu)]; simp [hu]
  | observe u i =>
    unfold World.step Op.vector
    simp only
    by_cases hi : i < 0
    · rw [if_pos hi, if_neg (by omega)]; rfl
    · rw [if_neg hi]
      show Function.update w.evidence u _ v = _
      by_cases hu : u = v
      · subst hu; rw [if_pos ⟨rfl, by omega⟩]; simp
      · rw [Function.update_of_ne (Ne.symm hu), if_neg (fun hh => hu hh.1)]; rfl
  | reset => exact absurd rfl h
  | _ => rfl

theorem after_evidence {net : Net K} : ∀ (ops : List (Op K)) (w : World K), (∀ op ∈ ops, op ≠ .reset) → ∀ v,
    (w.after net ops).evidence v = (ops.reverse.findSome? (Op.vector net v)).getD (w.evidence v) := by
  intro ops
  induction ops with
  | nil => intro w _ v; rfl
  | cons op ops ih =>
    intro w h v
    show ((w.step net op).after net ops).evidence v = _
    rw [ih _ (fun o ho => h o (List.mem_cons_of_mem _ ho)), step_evidence w (h op (List.mem_cons_self ..)), List.reverse_cons, List.findSome?_append]
    cases ops.reverse.findSome? (Op.vector net v) with
    | some e => rfl
    | none =>
      simp only [Option.none_or, Option.getD_none]
      cases hv : Op.vector net v op <;> simp [hv]

theorem after_latest {net : Net K} {ops : List (Op K)} (h : ∀ op ∈ ops, op ≠ .reset) (v : Nat) :
    ((World.fresh net).after net ops).evidence v = latest net ops v := after_evidence ops _ h v

theorem after_append (net : Net K) (w : World K) (a b : List (Op K)) : w.after net (a ++ b) = (w.after net a).after net b := List.foldl_append

theorem since_after {net : Net K} {hist ops : List (Op K)} (h : SinceReset hist ops) :
    (World.fresh net).after net hist = (World.fresh net).after net ops := by
  rcases h.2 with rfl | ⟨b, rfl⟩
  · rfl
  · rw [after_append]; rfl

theorem asked_append {net : Net K} {a b : List (Op K)} {v : Nat} : Asked net (a ++ b) v ↔ Asked net a v ∨ Asked net b v := by
  unfold Asked
  constructor
  · rintro ⟨h1, h, h2, h3⟩
    rcases List.mem_append.mp h2 with h2 | h2
    · exact Or.inl ⟨h1, h, h2, h3⟩
    · exact Or.inr ⟨h1, h, h2, h3⟩
  · rintro (⟨h1, h, h2, h3⟩ | ⟨h1, h, h2, h3⟩)
    · exact ⟨h1, h, List.mem_append_left _ h2, h3⟩
    · exact ⟨h1, h, List.mem_append_right _ h2, h3⟩

theorem asked_other {net : Net K} {op : Op K} (h : ∀ b, op ≠ .priors b) (v : Nat) : ¬ Asked net [op] v := by
  rintro ⟨_, b, h2, _⟩
  exact h b (List.mem_singleton.mp h2).symm

theorem asked_priors {net : Net K} {b : Bool} {v : Nat} : Asked net [.priors b] v ↔ v ∈ net.roots ∧ (b = true → net.oldOut v = false) := by
  unfold Asked
  constructor
  · rintro ⟨h1, h, h2, h3⟩
    rw [List.mem_singleton, Op.priors.injEq] at h2
    subst h2; exact ⟨h1, h3⟩
  · rintro ⟨h1, h2⟩; exact ⟨h1, b, by simp, h2⟩

theorem peaceful_prefix {net : Net K} {a b : List (Op K)} (h : Peaceful net (a ++ b)) : Peaceful net a := by
  intro a' op b' e v e' hv
  exact h a' op (b' ++ b) (by rw [e]; simp) v e' hv

theorem enter_present {net : Net K} (w : World K) (v : Nat) (e : List K) (u : Nat) (h : (w.enter net v e).present u = true) : w.present u = true := by
  unfold World.enter at h
  simp only at h
  split at h
  · cases h
  · exact h

theorem after_priors {net : Net K} : ∀ (ops : List (Op K)), (∀ op ∈ ops, op ≠ .reset) → ∀ v,
    (((World.fresh net).after net ops).entered v = true ↔ Asked net ops v) ∧
    (((World.fresh net).after net ops).present v = true → Asked net ops v ∧ Usable (net.card v) (net.prior v)) ∧
    (Peaceful net ops → Asked net ops v → Usable (net.card v) (net.prior v) → ((World.fresh net).after net ops).present v = true) := by
  classical
  intro ops
  induction ops using List.reverseRecOn with
  | nil =>
    intro _ v
    have : ¬ Asked net ([] : List (Op K)) v := by rintro ⟨_, h, h2, _⟩; cases h2
    refine ⟨⟨fun h => ?_, fun h => absurd h this⟩, fun h => ?_, fun _ h => absurd h this⟩
    · cases h
    · cases h
  | append_singleton ops op ih =>
    intro hr v
    have hr1 : ∀ o ∈ ops, o ≠ .reset := fun o ho => hr o (List.mem_append_left _ ho)
    obtain ⟨i1, i2, i3⟩ := ih hr1 v
    rw [after_append]
    obtain ⟨w, hw⟩ : ∃ w, w = (World.fresh net).after net ops := ⟨_, rfl⟩
    have hwe : ∀ v, w.evidence v = latest net ops v := fun v => by rw [hw]; exact after_latest hr1 v
    rw [← hw] at i1 i2 i3 ⊢
    show ((w.step net op).entered v = true ↔ _) ∧ ((w.step net op).present v = true → _) ∧ (_ → _ → _ → (w.step net op).present v = true)
    rw [asked_append]
    -- evidence
    have enter : ∀ u e, op.vector net u = some e → (∀ b, op ≠ .priors b) → w.step net op = w.enter net u e →
        ((w.step net op).entered v = true ↔ Asked net ops v ∨ Asked net [op] v) ∧
        ((w.step net op).present v = true → (Asked net ops v ∨ Asked net [op] v) ∧ Usable (net.card v) (net.prior v)) ∧
        (Peaceful net (ops ++ [op]) → (Asked net ops v ∨ Asked net [op] v) → Usable (net.card v) (net.prior v) → (w.step net op).present v = true) := by
      intro u e hu hp hs
      have hno := asked_other (net := net) hp v
      rw [hs]
      refine ⟨?_, ?_, ?_⟩
      · rw [show (w.enter net u e).entered v = w.entered v from rfl, i1]
        exact ⟨Or.inl, fun h => h.resolve_right hno⟩
      · intro h
        obtain ⟨h1, h2⟩ := i2 (enter_present w u e v h)
        exact ⟨Or.inl h1, h2⟩
      · intro hpe ha hus
        have hc := hpe ops op [] rfl u e hu
        rw [← hwe u] at hc
        unfold World.enter
        simp only
        rw [if_neg hc]
        exact i3 (peaceful_prefix hpe) (ha.resolve_right hno) hus
    have same : (∀ b, op ≠ .priors b) → w.step net op = w →
        ((w.step net op).entered v = true ↔ Asked net ops v ∨ Asked net [op] v) ∧
        ((w.step net op).present v = true → (Asked net ops v ∨ Asked net [op] v) ∧ Usable (net.card v) (net.prior v)) ∧
        (Peaceful net (ops ++ [op]) → (Asked net ops v ∨ Asked net [op] v) → Usable (net.card v) (net.prior v) → (w.step net op).present v = true) := by
      intro hp hs
      have hno := asked_other (net := net) hp v
      rw [hs]
      refine ⟨i1.trans ⟨Or.inl, fun h => h.resolve_right hno⟩, fun h => ⟨Or.inl (i2 h).1, (i2 h).2⟩, ?_⟩
      intro hpe ha hus
      exact i3 (peaceful_prefix hpe) (ha.resolve_right hno) hus
    cases op with
    | evidence u e => exact enter u e (by simp [Op.vector]) (by simp) rfl
    | observe u i =>
      by_cases hi : i < 0
      · exact same (by simp) (by unfold World.step; simp only; rw [if_pos hi])
      · exact enter u (indicator (net.card u) i) (if_pos ⟨rfl, by omega⟩) (by simp)
          (by unfold World.step; simp only; rw [if_neg hi])
    | reset => exact absurd rfl (hr .reset (by simp))
    | propagate => exact same (by simp) rfl
    | mass => exact same (by simp) rfl
    | query u => exact same (by simp) rfl
    | priors b =>
      rw [asked_priors]
      unfold World.step
      simp only [Bool.or_eq_true, decide_eq_true_eq]
      refine ⟨?_, ?_, ?_⟩
      · rw [i1]
      · rintro (h | ⟨h1, h2, h3, h4⟩)
        · exact ⟨Or.inl (i2 h).1, (i2 h).2⟩
        · exact ⟨Or.inr ⟨h1, h3⟩, h4⟩
      · intro hpe ha hus
        by_cases h0 : Asked net ops v
        · exact Or.inl (i3 (peaceful_prefix hpe) h0 hus)
        · have h1 := ha.resolve_left h0
          refine Or.inr ⟨h1.1, ?_, h1.2, hus⟩
          rw [← i1] at h0
          simpa using h0

open Classical in
/-- the weight after a history, in plain terms -/
theorem joint_after {net : Net K} {ops : List (Op K)} (h : ∀ op ∈ ops, op ≠ .reset) (x : Asg) :
    jointWeight net ((World.fresh net).after net ops) x =
      weightOf net (fun v => ((World.fresh net).after net ops).present v = true) (latest net ops) x := by
  unfold jointWeight weightOf
  have : ((World.fresh net).after net ops).evidence = latest net ops := funext fun v => after_latest h v
  rw [this]

/-! ### resetting -/

theorem retracted_eq {t t' : JTree K} (h : t'.skel = t.skel) : t'.retracted card = t.retracted card := by
  unfold JTree.retracted
  have h1 : t'.cliques.map (fun c => (c.vars, c.orig, c.sepsets)) = t.cliques.map (fun c => (c.vars, c.orig, c.sepsets)) := congrArg Prod.fst h
  have h2 : t'.sepsets.map (fun s => (s.vars, s.first, s.second)) = t.sepsets.map (fun s => (s.vars, s.first, s.second)) := congrArg Prod.snd h
  congr 1
  · have := congrArg (List.map (fun q : List Nat × Potential K × List Nat => ({ vars := q.1, p := q.2.1, orig := q.2.1, sepsets := q.2.2, mark := true } : Clique K))) h1
    simpa [List.map_map, Function.comp_def] using this
  · have := congrArg (List.map (fun q : List Nat × Nat × Nat => ({ vars := q.1, old := ones K card q.1, new := ones K card q.1, first := q.2.1, second := q.2.2 } : Sepset K))) h2
    simpa [List.map_map, Function.comp_def] using this

theorem varRec_ext {a b : VarRec K} (h1 : a.card = b.card) (h2 : a.parents = b.parents) (h3 : a.likelihood = b.likelihood) (h4 : a.prior = b.prior)
    (h5 : a.priorEntered = b.priorEntered) (h6 : a.familyClique = b.familyClique) (h7 : a.oldOutgoing = b.oldOutgoing) (h8 : a.outgoing = b.outgoing) :
    a = b := by
  cases a; cases b; simp only at *; subst h1 h2 h3 h4 h5 h6 h7 h8; rfl

theorem resetState_eq {net : Net K} {m m' : Model K} (h : Model.Keeps net m m') : Model.resetState net m' = Model.resetState net m := by
  obtain ⟨hs, ho⟩ := h
  unfold Model.resetState
  have e1 : (fun u => if u ∈ net.vars then
      ({ m'.var u with likelihood := List.replicate (net.card u) 1, priorEntered := false, familyClique := m'.famOf u } : VarRec K) else m'.var u) =
      fun u => if u ∈ net.vars then
      ({ m.var u with likelihood := List.replicate (net.card u) 1, priorEntered := false, familyClique := m.famOf u } : VarRec K) else m.var u := by
    funext u
    by_cases hu : u ∈ net.vars
    · rw [if_pos hu, if_pos hu]
      exact varRec_ext (hs.card u) (hs.parents u) rfl (hs.prior u) rfl (Model.famOf_same hs u) (hs.old u) (hs.out u)
    · rw [if_neg hu, if_neg hu, ho u hu]
  rw [e1, retracted_eq hs.skel]
  cases m; cases m'
  have h1 := hs.varList
  have h2 := hs.independent
  simp only at h1 h2 ⊢
  subst h1 h2
  rfl

end Nip
