import Verif.History
import Verif.Dynamic

/-! # Inference when messages from other time slices have been multiplied into the tables -/

namespace Nip

open Res Spec

set_option linter.unusedSectionVars false

variable {K : Type} [Field K] [LinearOrder K] [IsStrictOrderedRing K]

namespace Model

/-- the tables represent `T`, the state of the variables goes with `w` -/
structure Carries (net : Net K) (m : Model K) (w : World K) (T : Asg → K) : Prop where
  sound : Sound net m
  told : Told net m w
  reps : m.Reps net.card T

theorem Holds.carries {net : Net K} {m : Model K} {w : World K} (h : Holds net m w) : Carries net m w (repd net w) := ⟨h.sound, h.told, h.reps⟩

theorem Carries.congr {net : Net K} {m : Model K} {w : World K} {T T' : Asg → K} (h : Carries net m w T) (e : ∀ x, T x = T' x) :
    Carries net m w T' := by
  have : T = T' := funext e
  rw [← this]; exact h

theorem Carries.memo {net : Net K} {m : Model K} {w : World K} {T : Asg → K} (h : Carries net m w T) {v c : Nat}
    (hc : m.tree.findClique ((m.var v).parents ++ [v]) = ok (some c)) : Carries net (m.memo v c) w T := by
  refine ⟨h.sound.same (memo_same m v c) h.sound.typed h.sound.nonneg ?_, ⟨?_, ?_, h.told.present⟩, h.reps⟩
  · intro u hu
    rw [(memo_var m v c u).2.2]
    by_cases e : u = v
    · subst e; right; exact ⟨c, hc, by simp⟩
    · left; simp [e]
  · intro u hu; rw [(memo_var m v c u).1]; exact h.told.lik u hu
  · intro u hu; rw [(memo_var m v c u).2.1]; exact h.told.entered u hu

/-- evidence that does not contradict the evidence before it -/
theorem Carries.enter {net : Net K} {m : Model K} {w : World K} {T : Asg → K} (h : Carries net m w T) {v : Nat} {e : List K} (hv : v ∈ net.vars)
    (he : e.length = net.card v) (hn : ∀ a ∈ e, 0 ≤ a) (hcon : ¬ Contradicts (net.card v) (w.evidence v) e) :
    ∃ m', m.enterEvidence v e = ok (0, m') ∧ Keeps net m m' ∧ Carries net m' { w with evidence := Function.update w.evidence v e }
      (fun x => T x * factor e (some (w.evidence v)) (x v % net.card v)) := by
  classical
  obtain ⟨c, f1, f2, f3, f4⟩ := findFamily_eq h.sound hv
  have h1 := h.memo f2
  obtain ⟨m1, hm1⟩ : ∃ m1, m1 = m.memo v c := ⟨_, rfl⟩
  rw [← hm1] at f1 h1
  have k1 : Keeps net m m1 := by rw [hm1]; exact memo_keeps hv
  have f3' : c < m1.tree.cliques.length := by rw [hm1]; exact f3
  have f4' : v ∈ m1.tree.varsOf c := by rw [hm1]; exact f4
  obtain ⟨l1, l2, l3⟩ := h1.told.lik v hv
  have hcard := h1.sound.card v
  have hloop : loop (m1.var v).card (fun i (r : Bool) => do
      let l ← rd (m1.var v).likelihood i
      let e ← rd e i
      ok (if l = 0 ∧ e ≠ 0 then true else r)) false = ok false := by
    rw [hcard]
    have := loop_any (n := net.card v) (f := fun i (r : Bool) => do
      let l ← rd (m1.var v).likelihood i
      let e ← rd e i
      ok (if l = 0 ∧ e ≠ 0 then true else r)) (p := fun i => (w.evidence v).getD i 0 = 0 ∧ e.getD i 0 ≠ 0) (b := true) (r0 := false)
      (by
        intro i hi r
        rw [l1, rd_lt (by omega), ok_bind, rd_lt (by omega), ok_bind, List.getD_eq_getElem _ _ (by omega), List.getD_eq_getElem _ _ (by omega)]) rfl
    rw [this]
    exact congrArg ok (if_neg hcon)
  obtain ⟨t', e1, e2, e3, e4, e5, e6, e7⟩ := multiply_spec (m := m1) (c := c) (v := v) (num := e) (den := some (w.evidence v)) h1.sound.typed h1.sound.nonneg
    f4' f3' (by omega) (by intro d hd; cases hd; omega) hn (by intro d hd; cases hd; exact l3) h1.reps
  obtain ⟨m2, hm2⟩ : ∃ m2 : Model K, m2 = { m1 with tree := t' } := ⟨_, rfl⟩
  rw [← hm2] at e1 e6
  have hvar2 : m2.var = m1.var := by rw [hm2]
  obtain ⟨m3, hm3⟩ : ∃ m3, m3 = m2.setVar v { m2.var v with likelihood := e } := ⟨_, rfl⟩
  have hup := updateLikelihood_eq m2 v e (by rw [hvar2, l1, l2, hcard]) (by rw [hvar2, he, hcard])
  rw [← hm3] at hup
  have k2 : Same m1 m2 := by rw [hm2]; exact ⟨e2, rfl, rfl, fun _ => rfl, fun _ => rfl, fun _ => rfl, fun _ => rfl, fun _ => rfl⟩
  have k3 : Keeps net m2 m3 := by rw [hm3]; exact setVar_keeps hv _ ⟨rfl, rfl, rfl, rfl, rfl⟩
  have hvar3 : ∀ u, m3.var u = if u = v then { m1.var v with likelihood := e } else m1.var u := by
    intro u; rw [hm3, setVar_var, hvar2]
  have htree3 : m3.tree = t' := by rw [hm3, hm2]; rfl
  refine ⟨m3, ?_, k1.trans (Keeps.trans ⟨k2, fun u _ => by rw [hvar2]⟩ k3), h1.sound.same (k2.trans k3.1) (by rw [htree3]; exact e3) (by rw [htree3]; exact e4) ?_, ⟨?_, ?_, ?_⟩, ?_⟩
  · unfold enterEvidence
    rw [f1, ok_bind]
    simp only
    refine Eq.trans (congrArg (fun r => Res.bind r _) hloop) ?_
    simp only [ok_bind', Bool.not_false, if_true, l1, e1, ok_bind, hup, Bool.false_eq_true, if_false]
  · intro u _
    left
    rw [hvar3]
    split
    · rename_i e; rw [e]
    · rfl
  · intro u hu
    rw [hvar3]
    simp only
    by_cases e' : u = v
    · subst e'; simp [he]; exact hn
    · simp only [e', if_false, Function.update_of_ne e', ne_eq, not_false_eq_true]; exact h1.told.lik u hu
  · intro u hu
    rw [hvar3]
    simp only
    by_cases e' : u = v
    · subst e'; simp only [if_true]; exact h1.told.entered u hu
    · simp only [e', if_false]; exact h1.told.entered u hu
  · exact h1.told.present
  · unfold Reps at e6 ⊢
    rw [htree3]; rw [hm2] at e6; exact e6

theorem Carries.observe {net : Net K} {m : Model K} {w : World K} {T : Asg → K} (h : Carries net m w T) {v : Nat} {i : Int} (hi : 0 ≤ i)
    (hv : v ∈ net.vars) (hcon : ¬ Contradicts (net.card v) (w.evidence v) (indicator (net.card v) i)) :
    ∃ m', m.enterIndexObservation v i = ok (0, m') ∧ Keeps net m m' ∧
      Carries net m' { w with evidence := Function.update w.evidence v (indicator (net.card v) i) }
      (fun x => T x * factor (indicator (net.card v) i) (some (w.evidence v)) (x v % net.card v)) := by
  unfold enterIndexObservation
  rw [if_neg (by omega)]
  have hc := h.sound.card v
  have hl : loop (m.var v).card (fun j e => wr e j (if (j : Int) = i then (1 : K) else 0)) (List.replicate (m.var v).card 0) = ok (indicator (net.card v) i) := by
    rw [hc, loop_fill (by simp) (fun j => if (j : Int) = i then (1 : K) else 0)]
    · rfl
    · intro j hj l hl; rw [wr_lt (by omega)]
  obtain ⟨m', g1, g2, g3⟩ := h.enter hv (e := indicator (net.card v) i) (by simp [indicator]) (by
    intro a ha
    unfold indicator at ha
    obtain ⟨j, _, rfl⟩ := List.mem_map.mp ha
    split
    · exact zero_le_one
    · exact le_refl _) hcon
  refine ⟨m', ?_, g2, g3⟩
  refine Eq.trans (congrArg (fun r => Res.bind r _) hl) ?_
  exact g1

theorem Carries.consistent {net : Net K} {m : Model K} {w : World K} {T : Asg → K} (h : Carries net m w T) :
    ∃ m', m.makeConsistent = ok m' ∧ Keeps net m m' ∧ Carries net m' w T ∧ m'.tree.Agrees net.card (m'.tree.st net.card) := by
  obtain ⟨L, hL⟩ := h.sound.good
  obtain ⟨t1, t2, c1, c2, c3, c4, c5, c6, c7, c8⟩ := JTree.rounds hL h.sound.typed h.sound.nonneg
  have hs : Same m { m with tree := t2 } := ⟨c3, rfl, rfl, fun _ => rfl, fun _ => rfl, fun _ => rfl, fun _ => rfl, fun _ => rfl⟩
  refine ⟨{ m with tree := t2 }, ?_, ⟨hs, fun _ _ => rfl⟩, ⟨h.sound.same hs c4 c5 (fun v _ => Or.inl rfl), ⟨h.told.lik, h.told.entered, h.told.present⟩, ?_⟩, c6⟩
  · unfold makeConsistent
    have hb : m.tree.bare.cliques.length = m.tree.cliques.length := (JTree.bare_shape m.tree).len
    have hb1 : t1.bare.cliques.length = t1.cliques.length := (JTree.bare_shape t1).len
    rw [JTree.unmarkAll_eq, ok_bind, hb, c1, ok_bind]
    simp only [ne_eq, not_true, if_false]
    rw [JTree.unmarkAll_eq, ok_bind, hb1, c2, ok_bind]
  · unfold Reps
    simp only
    rw [JTree.skel_len c3, JTree.skel_slen c3]
    exact c8 T h.reps

theorem Carries.clique {net : Net K} {m : Model K} {w : World K} {T : Asg → K} (h : Carries net m w T)
    (ha : m.tree.Agrees net.card (m.tree.st net.card)) {c : Nat} (hc : c < m.tree.cliques.length) (x : Asg) :
    m.tree.phi net.card c x = sumOver net.card (without net.vars (m.tree.varsOf c)) T x := by
  obtain ⟨L, hL⟩ := h.sound.good
  exact JTree.marginal hL h.sound.typed h.sound.nonneg ha h.reps h.sound.nodup h.sound.cover hc x

theorem Carries.part {net : Net K} {m : Model K} {w : World K} {T : Asg → K} (h : Carries net m w T)
    (ha : m.tree.Agrees net.card (m.tree.st net.card)) {c : Nat} (hc : c < m.tree.cliques.length) {B : List Nat} (hB : ∀ v ∈ B, v ∈ m.tree.varsOf c)
    (x : Asg) :
    sumOver net.card (without (m.tree.varsOf c) B) (m.tree.phi net.card c) x = sumOver net.card (without net.vars B) T x := by
  rw [sumOver_congr' (fun z => h.clique ha hc z), ← sumOver_append]
  exact sumOver_perm (without_perm h.sound.nodup (h.sound.varsOf_nodup c) h.sound.varsOf_sub hB) _ _

theorem Carries.bare {net : Net K} {m : Model K} {w : World K} {T : Asg → K} (h : Carries net m w T) {t' : JTree K} (hb : t'.bare = m.tree.bare) :
    Keeps net m { m with tree := t' } ∧ Carries net { m with tree := t' } w T := by
  have hsk := JTree.skel_of_bare hb
  have hst := JTree.st_of_bare (card := net.card) hb
  have hs : Same m { m with tree := t' } := ⟨hsk, rfl, rfl, fun _ => rfl, fun _ => rfl, fun _ => rfl, fun _ => rfl, fun _ => rfl⟩
  refine ⟨⟨hs, fun _ _ => rfl⟩, h.sound.same hs (h.sound.typed.of_bare hb) ?_ (fun v _ => Or.inl rfl), ⟨h.told.lik, h.told.entered, h.told.present⟩, ?_⟩
  · have e1 : ∀ c x, t'.phi net.card c x = m.tree.phi net.card c x := fun c x => congrFun (congrFun (congrArg St.φ hst) c) x
    have e2 : ∀ c x, t'.psi net.card c x = m.tree.psi net.card c x := fun c x => congrFun (congrFun (congrArg St.ψ hst) c) x
    exact ⟨fun c x => by rw [e1]; exact h.sound.nonneg.φ c x, fun c x => by rw [e2]; exact h.sound.nonneg.ψ c x⟩
  · have := h.reps
    unfold Reps at this ⊢
    simp only
    rw [hst, JTree.skel_len hsk, JTree.skel_slen hsk]
    exact this

theorem Carries.mass {net : Net K} {m : Model K} {w : World K} {T : Asg → K} (h : Carries net m w T)
    (ha : m.tree.Agrees net.card (m.tree.st net.card)) (x : Asg) :
    ∃ m', m.probMass = ok (sumOver net.card net.vars T x, m') ∧ Keeps net m m' ∧ Carries net m' w T ∧
      m'.tree.Agrees net.card (m'.tree.st net.card) := by
  obtain ⟨L, hL⟩ := h.sound.good
  obtain ⟨t', h1, h2, h3⟩ := JTree.mass_total hL h.sound.typed h.sound.nonneg ha h.reps h.sound.nodup h.sound.cover x
  obtain ⟨g1, g2⟩ := h.bare h2
  refine ⟨{ m with tree := t' }, ?_, g1, g2, Agrees_bare h2 ha⟩
  unfold probMass
  rw [h1, ok_bind]

/-- the result for one variable -/
theorem Carries.posterior {net : Net K} {m : Model K} {w : World K} {T : Asg → K} (h : Carries net m w T)
    (ha : m.tree.Agrees net.card (m.tree.st net.card)) {v : Nat} (hv : v ∈ net.vars) :
    ∃ m', Nip.posterior m v = ok (if (sums net T v).sum = 0 then sums net T v else (sums net T v).map (· / (sums net T v).sum), m') ∧
      Keeps net m m' ∧ Carries net m' w T ∧ m'.tree = m.tree := by
  obtain ⟨c, f1, f2, f3, f4⟩ := findFamily_eq h.sound hv
  obtain ⟨cl, hcl⟩ : ∃ cl, m.tree.cliques[c]? = some cl := ⟨_, List.getElem?_eq_getElem f3⟩
  have hvars := JTree.varsOf_eq hcl
  obtain ⟨n1, n2, n3⟩ := h.sound.typed.clq c cl hcl
  have hvc : v ∈ cl.vars := by rw [← hvars]; exact f4
  have hcard : ((m.memo v c).var v).card = net.card v := by rw [(memo_same m v c).card]; exact h.sound.card v
  obtain ⟨i, hi⟩ : ∃ i, i = cl.vars.findIdx (fun y => v == y) := ⟨_, rfl⟩
  have hil : i < cl.vars.length := by rw [hi]; exact List.findIdx_lt_length_of_exists ⟨v, hvc, by simp⟩
  have hvi : cl.vars[i] = v := by
    have := List.findIdx_getElem (xs := cl.vars) (p := fun y => v == y) (w := by rw [← hi]; exact hil)
    simp only [← hi] at this
    simp at this; exact this.symm
  have hilc : i < cl.p.card.length := by rw [n2.card_eq]; simpa using hil
  have hci : cl.p.card[i] = net.card v := by simp [n2.card_eq, hvi]
  have hmarg := Potential.totalMarginalise_eq n2.wf (dest := List.replicate (net.card v) 0) hilc (by rw [hci]; simp)
  obtain ⟨r0, hr0⟩ : ∃ r0 : List K, r0 = (List.replicate (net.card v) 0).mapIdx (fun j a => if j < cl.p.card[i]
      then sumTuples cl.p.card (fun x => x.getD i 0 = j) cl.p.at' else a) := ⟨_, rfl⟩
  rw [← hr0] at hmarg
  have hr0l : r0.length = net.card v := by rw [hr0]; simp
  have hnorm := Props.normaliseArray_full r0
  rw [hr0l] at hnorm
  have this : r0 = sums net T v := by
    rw [hr0]
    unfold sums
    apply List.ext_getElem
    · simp
    · intro j h1 h2
      have hj : j < net.card v := by simpa using h2
      simp only [List.getElem_mapIdx, List.getElem_map, List.getElem_range]
      rw [if_pos (by rw [hci]; exact hj)]
      rw [← h.part ha f3 (B := [v]) (by simpa using f4)]
      have hsem := sumTuples_sem n1 (us := [v]) (by simpa using hvc) n2 (Function.update (fun _ => 0) v j)
      have hphi : m.tree.phi net.card c = sem net.card cl.vars cl.p := by
        funext x; unfold JTree.phi; rw [hcl]
      rw [hphi, hvars]
      show _ = sumOver net.card (cl.vars.filter (· ∉ [v])) _ _
      rw [← hsem]
      apply Potential.sumTuples_congr
      · intro idx hidx
        have hs : states net.card [v] (Function.update (fun _ => 0) v j) = [j] := by
          unfold states; simp [Nat.mod_eq_of_lt hj]
        rw [hs]
        unfold project places
        simp only [List.map_cons, List.map_nil, ← hi, List.cons.injEq, and_true]
      · intro idx _; rfl
  rw [← this]
  refine ⟨m.memo v c, ?_, memo_keeps hv, h.memo f2, rfl⟩
  unfold Nip.posterior
  rw [f1, ok_bind]
  simp only
  rw [hcard]
  show (do
    let (_, r) ← m.tree.marginaliseClique c v (List.replicate (net.card v) 0)
    let r ← Potential.normaliseArray r 0 (net.card v)
    ok (r, m.memo v c)) = _
  unfold JTree.marginaliseClique
  rw [varIndex_eq f4 f3, ok_bind]
  simp only
  rw [hvars, ← hi, rd_eq_ok.mpr hcl, ok_bind, hmarg, ok_bind]
  simp only
  rw [hnorm, ok_bind]

theorem Carries.posteriors {net : Net K} {w : World K} {T : Asg → K} : ∀ (vs : List Nat) {m : Model K}, Carries net m w T →
    m.tree.Agrees net.card (m.tree.st net.card) → (∀ v ∈ vs, v ∈ net.vars) → ∀ acc,
    ∃ m', vs.foldlM (fun (st : List (List K) × Model K) v => do
        let (r, m) ← Nip.posterior st.2 v
        ok (st.1 ++ [r], m)) (acc, m) = ok (acc ++ vs.map (fun v => if (sums net T v).sum = 0 then sums net T v
          else (sums net T v).map (· / (sums net T v).sum)), m') ∧
      Keeps net m m' ∧ Carries net m' w T ∧ m'.tree = m.tree := by
  intro vs
  induction vs with
  | nil => intro m h _ _ acc; exact ⟨m, by simp, Keeps.refl net m, h, rfl⟩
  | cons v vs ih =>
    intro m h ha hvs acc
    obtain ⟨m1, a1, a2, a3, a4⟩ := h.posterior ha (hvs v (List.mem_cons_self ..))
    obtain ⟨m2, b1, b2, b3, b4⟩ := ih a3 (by rw [a4]; exact ha) (fun u hu => hvs u (List.mem_cons_of_mem _ hu))
      (acc ++ [if (sums net T v).sum = 0 then sums net T v else (sums net T v).map (· / (sums net T v).sum)])
    refine ⟨m2, ?_, a2.trans b2, b3, b4.trans a4⟩
    rw [List.foldlM_cons]
    simp only [a1, ok_bind]
    refine Eq.trans b1 ?_
    simp

/-- what a message changes -/
def ratio (card : Nat → Nat) (us : List Nat) (num : Potential K) (den : Option (Potential K)) (x : Asg) : K :=
  match den with
  | none => sem card us num x
  | some d => if sem card us d x = 0 then 0 else sem card us num x / sem card us d x

/-- a message multiplied into a clique -/
theorem Carries.scale {net : Net K} {m : Model K} {w : World K} {T : Asg → K} (h : Carries net m w T) {c : Nat} {cl : Clique K}
    (hcl : m.tree.cliques[c]? = some cl) {us : List Nat} (hus : us ⊆ cl.vars) (hnd : us.Nodup) {num : Potential K} {den : Option (Potential K)}
    (hnum : TableOn net.card us num) (hden : ∀ d, den = some d → TableOn net.card us d)
    (hn : ∀ x, 0 ≤ sem net.card us num x) (hd : ∀ d, den = some d → ∀ x, 0 ≤ sem net.card us d x) :
    ∃ q m', Potential.update (some num) den cl.p (places cl.vars us) = ok (0, q) ∧
      m' = { m with tree := { m.tree with cliques := m.tree.cliques.set c { cl with p := q } } } ∧ Keeps net m m' ∧
      Carries net m' w (fun x => T x * ratio net.card us num den x) := by
  have hc : c < m.tree.cliques.length := (List.getElem?_eq_some_iff.mp hcl).1
  obtain ⟨n1, n2, n3⟩ := h.sound.typed.clq c cl hcl
  have hlen : us.length ≤ cl.vars.length := (hnd.subperm hus).length_le
  have hin : ∀ p : Potential K, TableOn net.card us p → Into cl.p.card (places cl.vars us) p.card := by
    intro p hp; rw [n2.card_eq, hp.card_eq]; exact places_into hus
  obtain ⟨q, hq⟩ : ∃ q, q = Potential.ofFn cl.p.card (fun x => Potential.updCell (some num) den (places cl.vars us) x (cl.p.at' x)) := ⟨_, rfl⟩
  obtain ⟨r, hr⟩ : ∃ r : Asg → K, r = fun x => ratio net.card us num den x := ⟨_, rfl⟩
  have hrn : ∀ x, 0 ≤ r x := by
    intro x
    rw [hr]
    unfold ratio
    cases den with
    | none => exact hn x
    | some d =>
      simp only
      split
      · exact le_refl _
      · exact div_nonneg (hn x) (hd d rfl x)
  have hupd : Potential.update (some num) den cl.p (places cl.vars us) = ok (0, q) := by
    rw [hq]
    refine Potential.update_ofFn n2.wf (Or.inl (by simp)) ?_ ?_ ?_
    · rintro _ ⟨rfl⟩; exact ⟨hnum.wf, hin _ hnum⟩
    · intro d e; exact ⟨(hden d e).wf, hin _ (hden d e)⟩
    · intro _ _; rw [n2.card_eq]; simpa [places] using hlen
  have hqon : TableOn net.card cl.vars q := by rw [hq, n2.card_eq]; exact ofFn_on n2.pos _
  have hqsem : ∀ x, sem net.card cl.vars q x = sem net.card cl.vars cl.p x * r x := by
    intro x
    rw [hq, n2.card_eq, sem_ofFn n2.pos, hr]
    unfold Potential.updCell ratio
    cases den with
    | none => simp only [project_states hus]; rfl
    | some d =>
      simp only [project_states hus]
      show (if sem net.card us d x = 0 then 0 else sem net.card cl.vars cl.p x * sem net.card us num x / sem net.card us d x) = _
      split
      · rw [mul_zero]
      · rw [mul_div_assoc]
  obtain ⟨t', ht'⟩ : ∃ t' : JTree K, t' = { m.tree with cliques := m.tree.cliques.set c { cl with p := q } } := ⟨_, rfl⟩
  have hsk : t'.skel = m.tree.skel := by rw [ht']; exact JTree.set_skel (cl' := { cl with p := q }) hcl rfl rfl
  have hphi : ∀ d x, t'.phi net.card d x = if d = c then m.tree.phi net.card d x * r x else m.tree.phi net.card d x := by
    intro d x
    rw [ht']
    unfold JTree.phi
    simp only [List.getElem?_set]
    by_cases e : c = d
    · subst e
      simp only [hc, if_true, hcl]
      exact hqsem x
    · rw [if_neg e, if_neg (Ne.symm e)]
  have hpsi : ∀ s x, t'.psi net.card s x = m.tree.psi net.card s x := by intro s x; rw [ht']; rfl
  have hs : Same m { m with tree := t' } := ⟨hsk, rfl, rfl, fun _ => rfl, fun _ => rfl, fun _ => rfl, fun _ => rfl, fun _ => rfl⟩
  refine ⟨q, { m with tree := t' }, hupd, by rw [ht'], ⟨hs, fun _ _ => rfl⟩, h.sound.same hs ⟨?_, ?_⟩ ⟨?_, ?_⟩ (fun v _ => Or.inl rfl),
    ⟨h.told.lik, h.told.entered, h.told.present⟩, ?_⟩
  · intro d dl hd
    rw [ht'] at hd
    simp only [List.getElem?_set] at hd
    split at hd
    · simp only [hc, if_true, Option.some.injEq] at hd
      rw [← hd]; exact ⟨n1, hqon, n3⟩
    · exact h.sound.typed.clq d dl hd
  · intro s sp hsp
    rw [JTree.skel_vars hsk, JTree.skel_vars hsk]
    rw [ht'] at hsp
    exact h.sound.typed.sep s sp hsp
  · intro d x
    rw [hphi]
    split
    · exact mul_nonneg (h.sound.nonneg.φ d x) (hrn x)
    · exact h.sound.nonneg.φ d x
  · intro s x; rw [hpsi]; exact h.sound.nonneg.ψ s x
  · have hT := h.reps
    have hr' : (fun x => T x * ratio net.card us num den x) = fun x => T x * r x := by rw [hr]
    rw [hr']
    unfold Reps at hT ⊢
    simp only
    rw [JTree.skel_len hsk, JTree.skel_slen hsk]
    refine ⟨?_, ?_, ?_⟩
    · intro x
      have hψ : ∀ s, (t'.st net.card).ψ s x = (m.tree.st net.card).ψ s x := fun s => hpsi s x
      rw [Finset.prod_congr rfl (fun s _ => hψ s)]
      rw [prod_at hc (fun d => (m.tree.st net.card).φ d x) (fun d => (t'.st net.card).φ d x) (u := r x), hT.prod x]
      · show _ = T x * r x * _; ring
      · intro d hd; show t'.phi net.card d x = _; rw [hphi, if_neg hd]; rfl
      · show t'.phi net.card c x = _; rw [hphi, if_pos rfl]; rfl
    · intro d hd x hx
      have hx' : t'.phi net.card d x = 0 := hx
      rw [hphi] at hx'
      show T x * r x = 0
      split at hx'
      · rcases mul_eq_zero.mp hx' with h | h
        · rw [hT.zφ d hd x h, zero_mul]
        · rw [h, mul_zero]
      · rw [hT.zφ d hd x hx', zero_mul]
    · intro s hs x hx
      have hx' : t'.psi net.card s x = 0 := hx
      rw [hpsi] at hx'
      show T x * r x = 0
      rw [hT.zψ s hs x hx', zero_mul]

end Model
end Nip
