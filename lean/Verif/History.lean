import Verif.BuildLemmas
import Verif.Props.Potential

/-! # Histories of operations on a model -/

namespace Nip

open Res Spec

set_option linter.unusedSectionVars false

section

variable {K : Type} [Zero K] [One K] [Add K] [Sub K] [Mul K] [Div K] [LinearOrder K]

/-- The function called for an operation: `nip_enter_evidence`, `nip_enter_index_observation`, `reset_model`, `use_priors`,
`make_consistent`, `model_prob_mass` and `get_probability` (citations at the definitions in `Verif/JoinTree.lean`).  Results of
questions are dropped here. -/
def Model.perform (m : Model K) : Op K → Res (Model K)
  | .evidence v e => do
    let r ← m.enterEvidence v e
    ok r.2
  | .observe v i => do
    let r ← m.enterIndexObservation v i
    ok r.2
  | .reset => m.reset
  | .priors h => m.usePriors h
  | .propagate => m.makeConsistent
  | .mass => do
    let r ← m.probMass
    ok r.2
  | .query v => do
    let r ← m.getProbability v
    ok r.2

/-- A sequence of calls. -/
def Model.performAll (m : Model K) (ops : List (Op K)) : Res (Model K) := ops.foldlM Model.perform m

/-- A model is made from a file, then functions are called.  A file that is not accepted ends in `ub`. -/
def NetFile.runFile (ptr : Nat) (f : NetFile K) (ops : List (Op K)) : Res (Model K) := do
  let r ← NetFile.build ptr f
  match r with
  | none => ub
  | some m => m.performAll ops

end

variable {K : Type} [Field K] [LinearOrder K] [IsStrictOrderedRing K]

theorem performAll_append (m : Model K) (a b : List (Op K)) : m.performAll (a ++ b) = (m.performAll a).bind (fun m => m.performAll b) := by
  unfold Model.performAll
  rw [List.foldlM_append]
  rfl

theorem runFile_append {ptr : Nat} {f : NetFile K} {a b : List (Op K)} {m : Model K} (h : NetFile.runFile ptr f a = ok m) :
    NetFile.runFile ptr f (a ++ b) = m.performAll b := by
  unfold NetFile.runFile at h ⊢
  cases hb : NetFile.build ptr f with
  | ub => rw [hb] at h; cases h
  | ok r =>
    rw [hb, ok_bind] at h
    rw [ok_bind]
    cases r with
    | none => cases h
    | some m0 =>
      simp only at h ⊢
      rw [performAll_append, h]
      rfl

/-! ### sums over legal assignments -/

theorem sumOver_legal {card : Nat → Nat} {f g : Asg → K} {U : List Nat} (h : ∀ z, Legal card U z → f z = g z) :
    ∀ (vs : List Nat) (x : Asg), (∀ v ∈ U, v ∉ vs → x v < card v) → sumOver card vs f x = sumOver card vs g x := by
  intro vs
  induction vs with
  | nil => intro x hx; exact h x (fun v hv => hx v hv (by simp))
  | cons v vs ih =>
    intro x hx
    refine Finset.sum_congr rfl fun i hi => ?_
    apply ih
    intro u hu hn
    by_cases e : u = v
    · subst e; simpa using Finset.mem_range.mp hi
    · rw [Function.update_of_ne e]; exact hx u hu (by simp [e, hn])

/-- weights look at the variables of the network only -/
structure Local (net : Net K) : Prop where
  tables : ∀ x y : Asg, (∀ v ∈ net.vars, x v = y v) → net.tables x = net.tables y
  rsub : ∀ v ∈ net.roots, v ∈ net.vars
  pos : ∀ v ∈ net.vars, 0 < net.card v
  nodup : net.vars.Nodup

theorem jointWeight_congr {net : Net K} (hl : Local net) (w : World K) {x y : Asg} (h : ∀ v ∈ net.vars, x v = y v) : jointWeight net w x = jointWeight net w y := by
  unfold jointWeight
  rw [hl.tables x y h]
  congr 1
  · congr 1
    congr 1
    apply List.map_congr_left
    intro v hv
    rw [h v (hl.rsub v hv)]
  · congr 1
    apply List.map_congr_left
    intro v hv
    rw [h v hv]

theorem repd_legal {net : Net K} (hl : Local net) (w : World K) {x : Asg} (hx : Legal net.card net.vars x) : repd net w x = jointWeight net w x :=
  jointWeight_congr hl w fun v hv => Nat.mod_eq_of_lt (hx v hv)

theorem repd_sum {net : Net K} (hl : Local net) (w : World K) (vs : List Nat) {x : Asg} (hx : ∀ v ∈ net.vars, v ∉ vs → x v < net.card v) :
    sumOver net.card vs (repd net w) x = sumOver net.card vs (jointWeight net w) x :=
  sumOver_legal (fun _ hz => repd_legal hl w hz) vs x hx

theorem net_local {f : NetFile K} (hf : f.Valid) : Local f.net := by
  refine ⟨?_, fun v hv => (List.mem_filter.mp hv).1, hf.states, hf.sorted.imp ne_of_lt⟩
  intro x y h
  show ((f.pots.filter _).map _).prod = ((f.pots.filter _).map _).prod
  congr 1
  apply List.map_congr_left
  intro q _
  unfold NetFile.entry
  congr 1
  apply List.map_congr_left
  intro v hv
  exact h v (List.mem_filter.mp hv).1

theorem zero_legal {net : Net K} (hl : Local net) : Legal net.card net.vars (fun _ => 0) := hl.pos

namespace Model

/-! ### the probabilities of a variable -/

theorem without_perm {U A B : List Nat} (hU : U.Nodup) (hA : A.Nodup) (hAU : ∀ v ∈ A, v ∈ U) (hBA : ∀ v ∈ B, v ∈ A) :
    (without A B ++ without U A).Perm (without U B) := by
  rw [List.perm_ext_iff_of_nodup]
  · intro v
    rw [List.mem_append, mem_without, mem_without, mem_without]
    constructor
    · rintro (⟨h1, h2⟩ | ⟨h1, h2⟩)
      · exact ⟨hAU v h1, h2⟩
      · exact ⟨h1, fun h => h2 (hBA v h)⟩
    · rintro ⟨h1, h2⟩
      by_cases hv : v ∈ A
      · exact Or.inl ⟨hv, h2⟩
      · exact Or.inr ⟨h1, hv⟩
  · rw [List.nodup_append]
    refine ⟨hA.filter _, hU.filter _, ?_⟩
    intro a ha b hb e
    subst e
    exact (mem_without.mp hb).2 (mem_without.mp ha).1
  · exact hU.filter _

theorem Sound.varsOf_nodup {net : Net K} {m : Model K} (h : Sound net m) (c : Nat) : (m.tree.varsOf c).Nodup := by
  cases hc : m.tree.cliques[c]? with
  | none => unfold JTree.varsOf; rw [hc]; exact List.nodup_nil
  | some cl => rw [JTree.varsOf_eq hc]; exact (h.typed.clq c cl hc).1

theorem Sound.varsOf_sub {net : Net K} {m : Model K} (h : Sound net m) {c : Nat} : ∀ v ∈ m.tree.varsOf c, v ∈ net.vars := by
  intro v hv
  refine (h.cover v).mpr ⟨c, ?_, hv⟩
  by_contra hc
  unfold JTree.varsOf at hv
  rw [List.getElem?_eq_none (by omega)] at hv
  cases hv

/-- marginal of a clique table over some of its variables -/
theorem Holds.part {net : Net K} {m : Model K} {w : World K} (h : Holds net m w) (ha : m.tree.Agrees net.card (m.tree.st net.card)) {c : Nat}
    (hc : c < m.tree.cliques.length) {B : List Nat} (hB : ∀ v ∈ B, v ∈ m.tree.varsOf c) (x : Asg) :
    sumOver net.card (without (m.tree.varsOf c) B) (m.tree.phi net.card c) x = sumOver net.card (without net.vars B) (repd net w) x := by
  rw [sumOver_congr' (fun z => h.clique ha hc z), ← sumOver_append]
  exact sumOver_perm (without_perm h.sound.nodup (h.sound.varsOf_nodup c) h.sound.varsOf_sub hB) _ _

/-- the numbers found by summing in the family clique -/
def sums (net : Net K) (T : Asg → K) (v : Nat) : List K :=
  (List.range (net.card v)).map (fun i => sumOver net.card (without net.vars [v]) T (Function.update (fun _ => 0) v i))

theorem sums_sum {net : Net K} (hn : net.vars.Nodup) {v : Nat} (hv : v ∈ net.vars) (T : Asg → K) :
    (sums net T v).sum = sumOver net.card net.vars T (fun _ => 0) := by
  have hp : net.vars.Perm (v :: without net.vars [v]) := by
    rw [List.perm_ext_iff_of_nodup hn]
    · intro u
      rw [List.mem_cons, mem_without, List.mem_singleton]
      constructor
      · intro h; by_cases e : u = v
        · exact Or.inl e
        · exact Or.inr ⟨h, e⟩
      · rintro (rfl | h)
        · exact hv
        · exact h.1
    · exact List.nodup_cons.mpr ⟨fun h => (mem_without.mp h).2 (by simp), hn.filter _⟩
  rw [sumOver_perm hp]
  unfold sums
  rw [sumOver]
  rfl

theorem getProbability_run {net : Net K} {m : Model K} {w : World K} (h : Holds net m w) {v : Nat} (hv : v ∈ net.vars) :
    ∃ c r, m.getProbability v = ok (some r, m.memo v c) ∧ Keeps net m (m.memo v c) ∧ Holds net (m.memo v c) w ∧
      (m.tree.Agrees net.card (m.tree.st net.card) →
        r = if (sums net (repd net w) v).sum = 0 then sums net (repd net w) v else (sums net (repd net w) v).map (· / (sums net (repd net w) v).sum)) := by
  obtain ⟨c, f1, f2, f3, f4⟩ := findFamily_eq h.sound hv
  obtain ⟨cl, hcl⟩ : ∃ cl, m.tree.cliques[c]? = some cl := ⟨_, List.getElem?_eq_getElem f3⟩
  have hvars := JTree.varsOf_eq hcl
  obtain ⟨n1, n2, n3⟩ := h.sound.typed.clq c cl hcl
  have hvc : v ∈ cl.vars := by rw [← hvars]; exact f4
  have hcard : ((m.memo v c).var v).card = net.card v := by rw [(memo_same m v c).card]; exact h.sound.card v
  obtain ⟨i, hi⟩ : ∃ i, i = cl.vars.findIdx (fun y => v == y) := ⟨_, rfl⟩
  have hil : i < cl.vars.length := by rw [hi]; exact List.findIdx_lt_length_of_exists ⟨v, hvc, by simp⟩
  have hvi : cl.vars[i] = v := by
    have := List.findIdx_getElem (xs := cl.vars) (p := fun y => v == y) (w := by rw [← hi]; exact hil)
    simp only [← hi] at this
    simp at this; exact this.symm
  have hilc : i < cl.p.card.length := by rw [n2.card_eq]; simpa using hil
  have hci : cl.p.card[i] = net.card v := by simp [n2.card_eq, hvi]
  have hmarg := Potential.totalMarginalise_eq n2.wf (dest := List.replicate (net.card v) 0) hilc (by rw [hci]; simp)
  obtain ⟨r0, hr0⟩ : ∃ r0 : List K, r0 = (List.replicate (net.card v) 0).mapIdx (fun j a => if j < cl.p.card[i]
      then sumTuples cl.p.card (fun x => x.getD i 0 = j) cl.p.at' else a) := ⟨_, rfl⟩
  rw [← hr0] at hmarg
  have hr0l : r0.length = net.card v := by rw [hr0]; simp
  have hnorm := Props.normaliseArray_full r0
  rw [hr0l] at hnorm
  refine ⟨c, if r0.sum = 0 then r0 else r0.map (· / r0.sum), ?_, memo_keeps hv, h.memo f2, ?_⟩
  · unfold getProbability
    rw [f1, ok_bind]
    simp only
    rw [hcard]
    show (do
      let (_, r) ← m.tree.marginaliseClique c v (List.replicate (net.card v) 0)
      let r ← Potential.normaliseArray r 0 (net.card v)
      ok (some r, m.memo v c)) = _
    unfold JTree.marginaliseClique
    rw [varIndex_eq f4 f3, ok_bind]
    simp only
    rw [hvars, ← hi, rd_eq_ok.mpr hcl, ok_bind, hmarg, ok_bind]
    simp only
    rw [hnorm, ok_bind]
  · intro ha
    have : r0 = sums net (repd net w) v := by
      rw [hr0]
      unfold sums
      apply List.ext_getElem
      · simp
      · intro j h1 h2
        have hj : j < net.card v := by simpa using h2
        simp only [List.getElem_mapIdx, List.getElem_map, List.getElem_range]
        rw [if_pos (by rw [hci]; exact hj)]
        rw [← h.part ha f3 (B := [v]) (by simpa using f4)]
        have hsem := sumTuples_sem n1 (us := [v]) (by simpa using hvc) n2 (Function.update (fun _ => 0) v j)
        have hphi : m.tree.phi net.card c = sem net.card cl.vars cl.p := by
          funext x; unfold JTree.phi; rw [hcl]
        rw [hphi, hvars]
        show _ = sumOver net.card (cl.vars.filter (· ∉ [v])) _ _
        rw [← hsem]
        apply Potential.sumTuples_congr
        · intro idx hidx
          have hs : states net.card [v] (Function.update (fun _ => 0) v j) = [j] := by
            unfold states; simp [Nat.mod_eq_of_lt hj]
          rw [hs]
          unfold project places
          simp only [List.map_cons, List.map_nil, ← hi, List.cons.injEq, and_true]
        · intro idx _; rfl
    rw [this]

theorem perform_spec {net : Net K} {m : Model K} {w : World K} (h : Holds net m w) {op : Op K} (ho : op.Valid net) :
    ∃ m', m.perform op = ok m' ∧ Keeps net m m' ∧ Holds net m' (w.step net op) := by
  cases op with
  | evidence v e =>
    obtain ⟨m', h1, h2, h3⟩ := enterEvidence_spec h ho.1 ho.2.1 ho.2.2
    exact ⟨m', by unfold perform; simp only; rw [h1, ok_bind], h2, h3⟩
  | observe v i =>
    obtain ⟨m', h1, h2, h3⟩ := enterIndexObservation_spec h ho i
    exact ⟨m', by unfold perform; simp only; rw [h1, ok_bind], h2, h3⟩
  | reset =>
    obtain ⟨h1, h2, h3⟩ := reset_spec h.sound (fun v hv => by rw [(h.told.lik v hv).1]; exact (h.told.lik v hv).2.1)
    refine ⟨_, h1, ⟨h2, ?_⟩, h3⟩
    intro v hv
    unfold resetState
    simp only
    rw [if_neg hv]
  | priors hist => exact usePriors_spec h hist
  | propagate =>
    obtain ⟨m', h1, h2, h3, _⟩ := makeConsistent_spec h
    exact ⟨m', h1, h2, h3⟩
  | mass =>
    obtain ⟨k, t', h1, h2⟩ := probMass_run h
    obtain ⟨g1, g2⟩ := bare_holds h h2
    exact ⟨_, by unfold perform; simp only; rw [h1, ok_bind], g1, g2⟩
  | query v =>
    obtain ⟨c, r, h1, h2, h3, _⟩ := getProbability_run h ho
    exact ⟨_, by unfold perform; simp only; rw [h1, ok_bind], h2, h3⟩

theorem performAll_spec {net : Net K} : ∀ (ops : List (Op K)) {m : Model K} {w : World K}, Holds net m w → (∀ op ∈ ops, op.Valid net) →
    ∃ m', m.performAll ops = ok m' ∧ Keeps net m m' ∧ Holds net m' (w.after net ops) := by
  intro ops
  induction ops with
  | nil => intro m w h _; exact ⟨m, rfl, Keeps.refl net m, h⟩
  | cons op ops ih =>
    intro m w h ho
    obtain ⟨m1, a1, a2, a3⟩ := perform_spec h (ho op (List.mem_cons_self ..))
    obtain ⟨m', b1, b2, b3⟩ := ih a3 (fun o h => ho o (List.mem_cons_of_mem _ h))
    refine ⟨m', ?_, a2.trans b2, b3⟩
    unfold performAll
    rw [List.foldlM_cons, a1]
    exact b1

theorem Agrees_bare {card : Nat → Nat} {t t' : JTree K} (hb : t'.bare = t.bare) (h : t.Agrees card (t.st card)) : t'.Agrees card (t'.st card) := by
  have hsk := JTree.skel_of_bare hb
  rw [JTree.st_of_bare (card := card) hb]
  intro s a b hj
  have e1 : t'.varsOf = t.varsOf := funext (JTree.skel_vars hsk)
  have e2 : t'.sepVars = t.sepVars := funext (JTree.skel_sepVars hsk)
  rw [e1, e2]
  refine h s a b ?_
  have := (JTree.skel_shape hsk).ends s
  unfold JTree.Joins at hj ⊢
  rw [← this]; exact hj

/-- questions leave the tables alone -/
theorem questions_spec {net : Net K} : ∀ (ops : List (Op K)) {m : Model K} {w : World K}, Holds net m w → (∀ op ∈ ops, op.Valid net) →
    (∀ op ∈ ops, op.IsQuestion) → ∃ m', m.performAll ops = ok m' ∧ Keeps net m m' ∧ Holds net m' w ∧ m'.tree.bare = m.tree.bare := by
  intro ops
  induction ops with
  | nil => intro m w h _ _; exact ⟨m, rfl, Keeps.refl net m, h, rfl⟩
  | cons op ops ih =>
    intro m w h ho hq
    have key : ∃ m1, m.perform op = ok m1 ∧ Keeps net m m1 ∧ Holds net m1 w ∧ m1.tree.bare = m.tree.bare := by
      have hv := ho op (List.mem_cons_self ..)
      have hq1 := hq op (List.mem_cons_self ..)
      cases op with
      | mass =>
        obtain ⟨k, t', h1, h2⟩ := probMass_run h
        obtain ⟨g1, g2⟩ := bare_holds h h2
        exact ⟨_, by unfold perform; simp only; rw [h1, ok_bind], g1, g2, h2⟩
      | query v =>
        obtain ⟨c, r, h1, h2, h3, _⟩ := getProbability_run h hv
        exact ⟨_, by unfold perform; simp only; rw [h1, ok_bind], h2, h3, rfl⟩
      | _ => exact absurd hq1 (by simp [Op.IsQuestion])
    obtain ⟨m1, a1, a2, a3, a4⟩ := key
    obtain ⟨m', b1, b2, b3, b4⟩ := ih a3 (fun o h => ho o (List.mem_cons_of_mem _ h)) (fun o h => hq o (List.mem_cons_of_mem _ h))
    refine ⟨m', ?_, a2.trans b2, b3, b4.trans a4⟩
    unfold performAll
    rw [List.foldlM_cons, a1]
    exact b1

end Model

/-- a history on a model made from a file -/
theorem runFile_spec (ptr : Nat) {f : NetFile K} (hf : f.Valid) {ops : List (Op K)} (ho : ∀ op ∈ ops, op.Valid f.net) :
    ∃ m, NetFile.runFile ptr f ops = ok m ∧ Model.Holds f.net m ((World.fresh f.net).after f.net ops) ∧
      ∀ m0, NetFile.build ptr f = ok (some m0) → Model.Keeps f.net m0 m := by
  obtain ⟨m0, h1, h2, _⟩ := build_spec ptr hf
  obtain ⟨m, g1, g2, g3⟩ := Model.performAll_spec ops h2 ho
  refine ⟨m, ?_, g3, ?_⟩
  · unfold NetFile.runFile
    rw [h1, ok_bind]
    exact g1
  · intro m1 hm1
    rw [h1] at hm1
    simp only [ok.injEq, Option.some.injEq] at hm1
    rw [← hm1]; exact g2

/-- a history that ends with inference and questions -/
theorem runFile_consistent (ptr : Nat) {f : NetFile K} (hf : f.Valid) {ops asks : List (Op K)} (ho : ∀ op ∈ ops, op.Valid f.net)
    (ha : ∀ op ∈ asks, op.Valid f.net) (hq : ∀ op ∈ asks, op.IsQuestion) :
    ∃ m, NetFile.runFile ptr f (ops ++ .propagate :: asks) = ok m ∧ Model.Holds f.net m ((World.fresh f.net).after f.net ops) ∧
      m.tree.Agrees f.card (m.tree.st f.card) := by
  obtain ⟨m1, h1, h2, _⟩ := runFile_spec ptr hf ho
  obtain ⟨m2, g1, _, g3, g4, _⟩ := Model.makeConsistent_spec h2
  obtain ⟨m, k1, _, k3, k4⟩ := Model.questions_spec asks g3 ha hq
  refine ⟨m, ?_, k3, Model.Agrees_bare k4 g4⟩
  rw [runFile_append h1]
  unfold Model.performAll
  rw [List.foldlM_cons]
  show (m1.makeConsistent).bind _ = _
  rw [g1]
  exact k1

end Nip
