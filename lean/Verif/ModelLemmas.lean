import Verif.DfsLemmas
import Verif.Spec.Network

/-! # Evidence, priors, reset and inference on a model -/

namespace Nip

open Res Spec

set_option linter.unusedSectionVars false

variable {K : Type} [Zero K] [One K] [Add K] [_root_.Sub K] [Mul K] [Div K] [LinearOrder K]

/-- states brought into range -/
def wrap (card : Nat → Nat) (x : Asg) : Asg := fun v => x v % card v

/-- contents of the original table of a clique -/
def JTree.origOf (card : Nat → Nat) (t : JTree K) (c : Nat) (x : Asg) : K :=
  match t.cliques[c]? with
  | some cl => sem card cl.vars cl.orig x
  | none => 1

/-- the product that the tables represent -/
def repd {K : Type} [Field K] [LinearOrder K] [IsStrictOrderedRing K] (net : Net K) (w : World K) (x : Asg) : K := jointWeight net w (wrap net.card x)

namespace Model

/-- the model implements the network -/
structure Sound {K : Type} [Field K] [LinearOrder K] [IsStrictOrderedRing K] (net : Net K) (m : Model K) : Prop where
  good : ∃ L, m.tree.Good net.card L
  typed : m.tree.Typed net.card
  nonneg : m.tree.Nonneg net.card
  onneg : ∀ c x, 0 ≤ m.tree.origOf net.card c x
  card : ∀ v, (m.var v).card = net.card v
  vars : m.varList = net.vars
  roots : m.independent = net.roots
  nodup : net.vars.Nodup
  rnodup : net.roots.Nodup
  rsub : ∀ v ∈ net.roots, v ∈ net.vars
  cover : ∀ v, v ∈ net.vars ↔ ∃ c, c < m.tree.cliques.length ∧ v ∈ m.tree.varsOf c
  origs : ∀ x, ∏ c ∈ Finset.range m.tree.cliques.length, m.tree.origOf net.card c x = net.tables (wrap net.card x)
  prior : ∀ v ∈ net.roots, (m.var v).prior = some (net.prior v) ∧ (net.prior v).length = net.card v ∧ ∀ a ∈ net.prior v, 0 ≤ a
  old : ∀ v, (m.var v).oldOutgoing = net.oldOut v
  fam : ∀ v ∈ net.vars, ∃ c, m.tree.findClique ((m.var v).parents ++ [v]) = ok (some c) ∧ c < m.tree.cliques.length ∧
    v ∈ m.tree.varsOf c ∧ ((m.var v).familyClique = none ∨ (m.var v).familyClique = some c)

/-- the state of the variables agrees with what was told -/
structure Told (net : Net K) (m : Model K) (w : World K) : Prop where
  lik : ∀ v ∈ net.vars, (m.var v).likelihood = w.evidence v ∧ (w.evidence v).length = net.card v ∧ ∀ a ∈ w.evidence v, 0 ≤ a
  entered : ∀ v ∈ net.vars, (m.var v).priorEntered = w.entered v
  present : ∀ v ∈ net.roots, w.present v = true → w.entered v = true

/-- the tables represent the weights -/
def Reps {K : Type} [Field K] [LinearOrder K] [IsStrictOrderedRing K] (m : Model K) (card : Nat → Nat) (T : Asg → K) : Prop := Repr m.tree.cliques.length m.tree.sepsets.length (m.tree.st card) T

/-- what inference relies on and keeps -/
structure Holds {K : Type} [Field K] [LinearOrder K] [IsStrictOrderedRing K] (net : Net K) (m : Model K) (w : World K) : Prop where
  sound : Sound net m
  told : Told net m w
  reps : m.Reps net.card (repd net w)

theorem findClique_skel {t t' : JTree K} (h : t'.skel = t.skel) (vs : List Nat) : t'.findClique vs = t.findClique vs := by
  unfold JTree.findClique
  rw [JTree.skel_len h]
  congr 1
  funext i
  have := JTree.skel_clique h i
  unfold rd
  cases h1 : t'.cliques[i]? <;> cases h2 : t.cliques[i]? <;> rw [h1, h2] at this
  · simp at this
  · simp at this
  · simp only [Option.map_some, Option.some.injEq, Prod.mk.injEq] at this
    simp only [ok_bind]
    rw [this.1]

/-- the parts that never change -/
structure Same (m m' : Model K) : Prop where
  skel : m'.tree.skel = m.tree.skel
  varList : m'.varList = m.varList
  independent : m'.independent = m.independent
  card : ∀ v, (m'.var v).card = (m.var v).card
  parents : ∀ v, (m'.var v).parents = (m.var v).parents
  prior : ∀ v, (m'.var v).prior = (m.var v).prior
  old : ∀ v, (m'.var v).oldOutgoing = (m.var v).oldOutgoing
  out : ∀ v, (m'.var v).outgoing = (m.var v).outgoing

theorem Same.refl (m : Model K) : Same m m := ⟨rfl, rfl, rfl, fun _ => rfl, fun _ => rfl, fun _ => rfl, fun _ => rfl, fun _ => rfl⟩

theorem Same.trans {a b c : Model K} (h : Same a b) (g : Same b c) : Same a c :=
  ⟨g.skel.trans h.skel, g.varList.trans h.varList, g.independent.trans h.independent, fun v => (g.card v).trans (h.card v),
    fun v => (g.parents v).trans (h.parents v), fun v => (g.prior v).trans (h.prior v), fun v => (g.old v).trans (h.old v),
    fun v => (g.out v).trans (h.out v)⟩

theorem origOf_skel {card : Nat → Nat} {t t' : JTree K} (h : t'.skel = t.skel) (c : Nat) (x : Asg) : t'.origOf card c x = t.origOf card c x := by
  have := JTree.skel_clique h c
  unfold JTree.origOf
  cases h1 : t'.cliques[c]? <;> cases h2 : t.cliques[c]? <;> rw [h1, h2] at this
  · simp at this
  · simp at this
  · simp only [Option.map_some, Option.some.injEq, Prod.mk.injEq] at this
    simp only
    rw [this.1, this.2.1]

theorem Sound.same {K : Type} [Field K] [LinearOrder K] [IsStrictOrderedRing K] {net : Net K} {m m' : Model K} (h : Sound net m) (hs : Same m m') (ht : m'.tree.Typed net.card) (hn : m'.tree.Nonneg net.card)
    (hf : ∀ v ∈ net.vars, (m'.var v).familyClique = (m.var v).familyClique ∨
      ∃ c, m.tree.findClique ((m.var v).parents ++ [v]) = ok (some c) ∧ (m'.var v).familyClique = some c) : Sound net m' := by
  obtain ⟨L, hL⟩ := h.good
  have hl := JTree.skel_len hs.skel
  refine ⟨⟨L, hL.skel hs.skel⟩, ht, hn, ?_, ?_, hs.varList.trans h.vars, hs.independent.trans h.roots, h.nodup, h.rnodup, h.rsub, ?_, ?_, ?_, ?_, ?_⟩
  · intro c x; rw [origOf_skel hs.skel]; exact h.onneg c x
  · intro v; rw [hs.card]; exact h.card v
  · intro v
    rw [h.cover v, hl]
    simp only [JTree.skel_vars hs.skel]
  · intro x
    rw [hl, ← h.origs x]
    exact Finset.prod_congr rfl (fun c _ => origOf_skel hs.skel c x)
  · intro v hv; rw [hs.prior]; exact h.prior v hv
  · intro v; rw [hs.old]; exact h.old v
  · intro v hv
    obtain ⟨c, h1, h2, h3, h4⟩ := h.fam v hv
    refine ⟨c, ?_, ?_, ?_, ?_⟩
    · rw [findClique_skel hs.skel, hs.parents]; exact h1
    · rw [hl]; exact h2
    · rw [JTree.skel_vars hs.skel]; exact h3
    · rcases hf v hv with e | ⟨c', e1, e2⟩
      · rw [e]; exact h4
      · rw [h1] at e1
        simp only [ok.injEq, Option.some.injEq] at e1
        rw [e2, e1]; exact Or.inr rfl

/-! ### the family clique -/

/-- the variable with the family clique remembered -/
def memo (m : Model K) (v c : Nat) : Model K := m.setVar v { m.var v with familyClique := some c }

theorem memo_same (m : Model K) (v c : Nat) : Same m (m.memo v c) := by
  refine ⟨rfl, rfl, rfl, ?_, ?_, ?_, ?_, ?_⟩ <;> intro u <;> unfold memo setVar <;> simp only <;> by_cases e : u = v
  all_goals first | (subst e; simp) | simp [e]

theorem memo_var (m : Model K) (v c u : Nat) : ((m.memo v c).var u).likelihood = (m.var u).likelihood ∧
    ((m.memo v c).var u).priorEntered = (m.var u).priorEntered ∧ ((m.memo v c).var u).familyClique = if u = v then some c else (m.var u).familyClique := by
  unfold memo setVar
  simp only
  by_cases e : u = v
  · subst e; simp
  · simp [Function.update_of_ne e, e]

theorem findFamily_eq {K : Type} [Field K] [LinearOrder K] [IsStrictOrderedRing K] {net : Net K} {m : Model K} (h : Sound net m) {v : Nat} (hv : v ∈ net.vars) :
    ∃ c, m.findFamily v = ok (some c, m.memo v c) ∧ m.tree.findClique ((m.var v).parents ++ [v]) = ok (some c) ∧
      c < m.tree.cliques.length ∧ v ∈ m.tree.varsOf c := by
  obtain ⟨c, h1, h2, h3, h4⟩ := h.fam v hv
  refine ⟨c, ?_, h1, h2, h3⟩
  unfold findFamily
  rcases h4 with e | e
  · rw [e, h1, ok_bind]; rfl
  · rw [e]
    simp only
    congr 2
    unfold memo setVar
    have : ({ m.var v with familyClique := some c } : VarRec K) = m.var v := by rw [← e]
    rw [this, Function.update_eq_self]

theorem Holds.memo {K : Type} [Field K] [LinearOrder K] [IsStrictOrderedRing K] {net : Net K} {m : Model K} {w : World K} (h : Holds net m w) {v c : Nat}
    (hc : m.tree.findClique ((m.var v).parents ++ [v]) = ok (some c)) : Holds net (m.memo v c) w := by
  refine ⟨h.sound.same (memo_same m v c) h.sound.typed h.sound.nonneg ?_, ⟨?_, ?_, h.told.present⟩, h.reps⟩
  · intro u hu
    rw [(memo_var m v c u).2.2]
    by_cases e : u = v
    · subst e; right; exact ⟨c, hc, by simp⟩
    · left; simp [e]
  · intro u hu; rw [(memo_var m v c u).1]; exact h.told.lik u hu
  · intro u hu; rw [(memo_var m v c u).2.1]; exact h.told.entered u hu

/-! ### multiplying a vector into a clique -/

/-- the factor by which evidence changes a cell -/
def factor (num : List K) (den : Option (List K)) (i : Nat) : K :=
  match den with
  | some d => if d.getD i 0 = 0 then num.getD i 0 else num.getD i 0 / d.getD i 0
  | none => num.getD i 0

theorem varIndex_eq {t : JTree K} {c v : Nat} (hv : v ∈ t.varsOf c) (hc : c < t.cliques.length) :
    t.varIndex c v = ok (some ((t.varsOf c).findIdx (fun y => v == y))) := by
  unfold JTree.varIndex
  have e : t.varsOf c = t.cliques[c].vars := JTree.varsOf_eq (List.getElem?_eq_getElem hc)
  rw [rd_lt hc, ok_bind, ← e, if_neg (by intro h; rw [List.length_eq_zero_iff] at h; rw [h] at hv; cases hv), findVar_eq]
  congr 1
  rw [List.findIdx?_eq_some_iff_findIdx_eq]
  exact ⟨List.findIdx_lt_length_of_exists ⟨v, hv, by simp⟩, rfl⟩

theorem multiplyEvidence_eq {K : Type} [Field K] [LinearOrder K] [IsStrictOrderedRing K] {card : Nat → Nat} {m : Model K} (ht : m.tree.Typed card) {c v : Nat} (hv : v ∈ m.tree.varsOf c)
    (hc : c < m.tree.cliques.length) {num : List K} {den : Option (List K)} (hnum : card v ≤ num.length)
    (hden : ∀ d, den = some d → card v ≤ d.length) :
    ∃ t', m.multiplyEvidence c v num den = ok { m with tree := t' } ∧ t'.skel = m.tree.skel ∧ t'.Typed card ∧
      t'.sepsets = m.tree.sepsets ∧ (∀ d, t'.markOf d = m.tree.markOf d) ∧
      (∀ d x, t'.phi card d x = if d = c then m.tree.phi card d x * factor num den (x v % card v) else m.tree.phi card d x) ∧
      (∀ x, t'.psi card x = m.tree.psi card x) ∧ ((∀ i, i < card v → factor num den i = 1) → t' = m.tree) := by
  obtain ⟨cl, hcl⟩ : ∃ cl, m.tree.cliques[c]? = some cl := ⟨_, List.getElem?_eq_getElem hc⟩
  have hvars := JTree.varsOf_eq hcl
  rw [hvars] at hv
  obtain ⟨n1, n2, n3⟩ := ht.clq c cl hcl
  obtain ⟨i, hi⟩ : ∃ i, i = cl.vars.findIdx (fun y => v == y) := ⟨_, rfl⟩
  have hil : i < cl.vars.length := by rw [hi]; exact List.findIdx_lt_length_of_exists ⟨v, hv, by simp⟩
  have hvi : cl.vars[i] = v := by
    have := List.findIdx_getElem (xs := cl.vars) (p := fun y => v == y) (w := by rw [← hi]; exact hil)
    simp only [← hi] at this
    simp at this; exact this.symm
  have hilc : i < cl.p.card.length := by rw [n2.card_eq]; simpa using hil
  have hci : cl.p.card[i] = card v := by simp [n2.card_eq, hvi]
  have hupd := Potential.updateEvidence_ofFn n2.wf (num := num) (den := den) hilc (by rw [hci]; exact hnum)
    (fun d hd => by rw [hci]; exact hden d hd)
  obtain ⟨q, hq⟩ : ∃ q, q = Potential.ofFn cl.p.card (fun x => Potential.evCell num den i x (cl.p.at' x)) := ⟨_, rfl⟩
  rw [← hq] at hupd
  have hqon : TableOn card cl.vars q := by rw [hq, n2.card_eq]; exact ofFn_on n2.pos _
  have hqsem : ∀ x, sem card cl.vars q x = sem card cl.vars cl.p x * factor num den (x v % card v) := by
    intro x
    rw [hq, n2.card_eq, sem_ofFn n2.pos]
    have hs : (states card cl.vars x).getD i 0 = x v % card v := by
      unfold states
      rw [List.getD_eq_getElem _ _ (by simpa using hil)]
      simp [hvi]
    unfold Potential.evCell factor
    simp only [hs]
    cases den with
    | none => rfl
    | some d =>
      simp only
      split
      · rfl
      · rw [mul_div_assoc]; rfl
  have hsk : ({ cliques := m.tree.cliques.set c { cl with p := q }, sepsets := m.tree.sepsets } : JTree K).skel = m.tree.skel :=
    JTree.set_skel (cl' := { cl with p := q }) hcl rfl rfl
  refine ⟨{ cliques := m.tree.cliques.set c { cl with p := q }, sepsets := m.tree.sepsets }, ?_, hsk, ⟨?_, ?_⟩, rfl, ?_, ?_, fun x => rfl, ?_⟩
  · unfold multiplyEvidence
    rw [varIndex_eq (by rw [hvars]; exact hv) hc, ok_bind]
    simp only
    rw [hvars, ← hi, rd_eq_ok.mpr hcl, ok_bind, hupd, ok_bind, wr_lt hc, ok_bind]
  · intro d dl hd
    simp only [List.getElem?_set] at hd
    split at hd
    · simp only [Option.some.injEq] at hd
      rw [← hd]; exact ⟨n1, hqon, n3⟩
    · exact ht.clq d dl hd
  · intro s sp hs
    rw [JTree.skel_vars hsk, JTree.skel_vars hsk]
    exact ht.sep s sp hs
  · intro d
    unfold JTree.markOf
    simp only [List.getElem?_set]
    by_cases e : c = d
    · subst e; rw [hcl]; simp [hc]
    · simp [e]
  · intro d x
    unfold JTree.phi
    simp only [List.getElem?_set]
    by_cases e : c = d
    · subst e
      simp only [hc, if_true, hcl]
      exact hqsem x
    · rw [if_neg e, if_neg (Ne.symm e)]
  · intro h1
    have : q = cl.p := by
      refine sem_ext n1 hqon n2 (fun x => ?_)
      rw [hqsem, h1 _ (Nat.mod_lt _ (n2.pos v hv)), mul_one]
    rw [this]
    have hset : m.tree.cliques.set c { cl with p := cl.p } = m.tree.cliques := by
      have : ({ cl with p := cl.p } : Clique K) = cl := rfl
      rw [this]
      apply List.ext_getElem?
      intro j
      rw [List.getElem?_set]
      by_cases e : c = j
      · subst e; rw [if_pos rfl, if_pos hc, hcl]
      · rw [if_neg e]
    rw [hset]

theorem factor_nonneg {K : Type} [Field K] [LinearOrder K] [IsStrictOrderedRing K] {num : List K} {den : Option (List K)} (hn : ∀ a ∈ num, 0 ≤ a) (hd : ∀ d, den = some d → ∀ a ∈ d, 0 ≤ a) (i : Nat) :
    0 ≤ factor num den i := by
  have key : ∀ l : List K, (∀ a ∈ l, 0 ≤ a) → 0 ≤ l.getD i 0 := by
    intro l hl
    by_cases h : i < l.length
    · rw [List.getD_eq_getElem _ _ h]; exact hl _ (List.getElem_mem h)
    · rw [List.getD_eq_default _ _ (by omega)]
  unfold factor
  cases den with
  | none => exact key num hn
  | some d =>
    simp only
    split
    · exact key num hn
    · exact div_nonneg (key num hn) (key d (hd d rfl))

/-- multiplying a vector into one clique multiplies it into what the tree represents -/
theorem multiply_spec {K : Type} [Field K] [LinearOrder K] [IsStrictOrderedRing K] {card : Nat → Nat} {m : Model K} (ht : m.tree.Typed card) (hn : m.tree.Nonneg card) {c v : Nat} (hv : v ∈ m.tree.varsOf c)
    (hc : c < m.tree.cliques.length) {num : List K} {den : Option (List K)} (hnum : card v ≤ num.length)
    (hden : ∀ d, den = some d → card v ≤ d.length) (h1 : ∀ a ∈ num, 0 ≤ a) (h2 : ∀ d, den = some d → ∀ a ∈ d, 0 ≤ a) {T : Asg → K}
    (hT : m.Reps card T) :
    ∃ t', m.multiplyEvidence c v num den = ok { m with tree := t' } ∧ t'.skel = m.tree.skel ∧ t'.Typed card ∧ t'.Nonneg card ∧
      (∀ d, t'.markOf d = m.tree.markOf d) ∧
      Reps { m with tree := t' } card (fun x => T x * factor num den (x v % card v)) ∧
      ((∀ i, i < card v → factor num den i = 1) → t' = m.tree) := by
  obtain ⟨t', e1, e2, e3, e4, e5, e6, e7, e8⟩ := multiplyEvidence_eq ht hv hc hnum hden
  refine ⟨t', e1, e2, e3, ⟨?_, ?_⟩, e5, ?_, e8⟩
  · intro d x
    rw [e6]
    split
    · exact mul_nonneg (hn.φ d x) (factor_nonneg h1 h2 _)
    · exact hn.φ d x
  · intro s x; rw [e7]; exact hn.ψ s x
  · unfold Reps at hT ⊢
    simp only
    rw [JTree.skel_len e2, JTree.skel_slen e2]
    refine ⟨?_, ?_, ?_⟩
    · intro x
      have hψ : ∀ s, (t'.st card).ψ s x = (m.tree.st card).ψ s x := fun s => congrFun (e7 s) x
      rw [Finset.prod_congr rfl (fun s _ => hψ s)]
      rw [prod_at hc (fun d => (m.tree.st card).φ d x) (fun d => (t'.st card).φ d x) (u := factor num den (x v % card v)), hT.prod x]
      · ring
      · intro d hd; show t'.phi card d x = _; rw [e6, if_neg hd]; rfl
      · show t'.phi card c x = _; rw [e6, if_pos rfl]; rfl
    · intro d hd x hx
      have hx' : t'.phi card d x = 0 := hx
      rw [e6] at hx'
      split at hx'
      · rcases mul_eq_zero.mp hx' with h | h
        · rw [hT.zφ d hd x h, zero_mul]
        · rw [h, mul_zero]
      · rw [hT.zφ d hd x hx', zero_mul]
    · intro s hs x hx
      have hx' : t'.psi card s x = 0 := hx
      rw [e7] at hx'
      rw [hT.zψ s hs x hx', zero_mul]

end Model
end Nip
