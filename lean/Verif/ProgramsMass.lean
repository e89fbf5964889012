import Verif.ProgramsLemmas
import Verif.Props.Joint
import Verif.Spec.Records

/-! # Entering a record in two parts, and joint probabilities: lemmas for `niplikelihood` and `nipjoint` -/

namespace Nip

open Res Spec

set_option linter.unusedSectionVars false

variable {K : Type} [Field K] [LinearOrder K] [IsStrictOrderedRing K]

/-- what is known after the first `i` columns, those of the marked variables -/
def moreAfter (card : Nat → Nat) (seen : Nat → Int) (marked : Nat → Bool) (observed : List Nat) (base : Nat → List K) (i : Nat) (v : Nat) : List K :=
  if marked v = true ∧ 0 ≤ seen v ∧ v ∈ observed.take i then vision card seen v else base v

theorem Model.Carries.insertMore {net : Net K} {m : Model K} {w : World K} {T : Asg → K} (h : Model.Carries net m w T) (hl : Local net) {ts : TimeSeries}
    (hts : ts.WellFormed) (hn : ts.observed.Nodup) (hsub : ∀ v ∈ ts.observed, v ∈ net.vars) (marked : Nat → Bool)
    (hw : ∀ v ∈ ts.observed, marked v = true → w.evidence v = List.replicate (net.card v) 1) {t : Nat} (ht : t < ts.length) :
    ∃ m' w', insertStep marked ts (t : Int) m = ok (0, m') ∧ Model.Keeps net m m' ∧ (∀ v, marked v = false → w'.evidence v = w.evidence v) ∧
      Model.Carries net m' w' (fun x => T x * sight net (vision net.card (dataSees marked ts.observed ts.data t)) x) := by
  have htd : t < ts.data.length := by rw [hts.rows]; exact ht
  obtain ⟨row, hrow⟩ : ∃ row, row = ts.data[t] := ⟨_, rfl⟩
  have hrl : row.length = ts.observed.length := hts.row row (by rw [hrow]; exact List.getElem_mem _)
  have hsees : dataSees marked ts.observed ts.data t = rowSees marked ts.observed row := by
    funext v; unfold dataSees; rw [List.getD_eq_getElem _ _ htd, hrow]
  rw [hsees]
  obtain ⟨seen, hseen⟩ : ∃ seen, seen = rowSees marked ts.observed row := ⟨_, rfl⟩
  rw [← hseen]
  unfold insertStep
  rw [if_neg (by omega)]
  have hnum : ((ts.numVars : Int) - ts.numHidden).toNat = ts.observed.length := by rw [hts.hidden]; simp
  rw [hnum]
  obtain ⟨m', e1, e2, e3⟩ := loop_inv (n := ts.observed.length) (s := m) (f := fun i (m : Model K) => do
      let v ← rd ts.observed i
      if marked v then do
        let row ← rd ts.data (t : Int).toNat
        let d ← rd row i
        if 0 ≤ d then do
          let r ← m.enterIndexObservation v d
          ok r.2
        else ok m
      else ok m)
    (fun i m' => Model.Keeps net m m' ∧ Model.Carries net m' { w with evidence := moreAfter net.card seen marked ts.observed w.evidence i }
      (fun x => T x * sight net (knownAfter net.card seen ts.observed i) x))
    (by
      have h0 : moreAfter (K := K) net.card seen marked ts.observed w.evidence 0 = w.evidence := by funext v; simp [moreAfter]
      rw [h0]
      refine ⟨Model.Keeps.refl net m, h.congr fun x => ?_⟩
      unfold sight
      rw [List.prod_eq_one, mul_one]
      intro a ha
      obtain ⟨v, hv, rfl⟩ := List.mem_map.mp ha
      unfold knownAfter
      simp only [List.take_zero, List.not_mem_nil, if_false]
      exact getD_ones (Nat.mod_lt _ (hl.pos v hv)))
    (by
      rintro i hi m1 ⟨k1, k2⟩
      have hob := hsub _ (List.getElem_mem hi)
      have hout : ts.observed[i] ∉ ts.observed.take i := by
        intro hm
        obtain ⟨j, hj, e⟩ := List.mem_iff_getElem.mp hm
        rw [List.getElem_take] at e
        have := (hn.getElem_inj_iff).mp e
        simp at hj; omega
      have hknown : knownAfter (K := K) net.card seen ts.observed i ts.observed[i] = List.replicate (net.card ts.observed[i]) 1 := by
        unfold knownAfter
        rw [if_neg hout]
      have hmore : moreAfter (K := K) net.card seen marked ts.observed w.evidence i ts.observed[i] = w.evidence ts.observed[i] := by
        unfold moreAfter
        rw [if_neg (fun h => hout h.2.2)]
      have hse := rowSees_getElem (marked := marked) hn hrl hi
      rw [← hseen] at hse
      have hsame : seen ts.observed[i] < 0 → knownAfter (K := K) net.card seen ts.observed (i + 1) = knownAfter net.card seen ts.observed i ∧
          moreAfter (K := K) net.card seen marked ts.observed w.evidence (i + 1) = moreAfter net.card seen marked ts.observed w.evidence i := by
        intro hneg
        refine ⟨by rw [knownAfter_succ net.card seen hi, vision_unseen hneg, ← hknown, Function.update_eq_self], ?_⟩
        funext v
        unfold moreAfter
        by_cases e : v = ts.observed[i]
        · subst e
          rw [if_neg (by omega), if_neg (by omega)]
        · simp only [take_succ_mem hi, e, or_false]
      by_cases hm : marked ts.observed[i]
      · rw [if_pos hm] at hse
        have hone' := hw _ (List.getElem_mem hi) hm
        by_cases hd : 0 ≤ row[i]
        · obtain ⟨m2, g1, g2, g3⟩ := k2.observe (i := row[i]) hd hob (by
            rintro ⟨j, hj, h1, _⟩
            simp only at h1
            rw [hmore, hone', getD_ones hj] at h1
            exact one_ne_zero h1)
          refine ⟨m2, ?_, k1.trans g2, ?_⟩
          · simp only [rd_lt hi, ok_bind, hm, if_true, Int.toNat_natCast, rd_lt htd, ← hrow, rd_lt (show i < row.length by omega), hd, g1]
          · have hvis : vision (K := K) net.card seen ts.observed[i] = indicator (net.card ts.observed[i]) row[i] := by
              unfold vision; rw [hse, if_neg (by omega)]
            have hupd : moreAfter (K := K) net.card seen marked ts.observed w.evidence (i + 1) =
                Function.update (moreAfter net.card seen marked ts.observed w.evidence i) ts.observed[i] (indicator (net.card ts.observed[i]) row[i]) := by
              funext v
              unfold moreAfter
              by_cases e : v = ts.observed[i]
              · subst e
                rw [Function.update_self, if_pos ⟨hm, by rw [hse]; exact hd, (take_succ_mem hi).mpr (Or.inr rfl)⟩, hvis]
              · rw [Function.update_of_ne e]
                simp only [take_succ_mem hi, e, or_false]
            rw [knownAfter_succ net.card seen hi, hvis, hupd]
            refine g3.congr fun x => ?_
            rw [mul_assoc]
            congr 1
            obtain ⟨R, r1, r2⟩ := evidence_prod h.sound.nodup hob (knownAfter (K := K) net.card seen ts.observed i)
              (indicator (net.card ts.observed[i]) row[i]) (wrap net.card x)
            have hone : (knownAfter (K := K) net.card seen ts.observed i ts.observed[i]).getD (x ts.observed[i] % net.card ts.observed[i]) 0 = 1 := by
              rw [hknown]; exact getD_ones (Nat.mod_lt _ (hl.pos _ hob))
            have hone2 : (moreAfter (K := K) net.card seen marked ts.observed w.evidence i ts.observed[i]).getD (x ts.observed[i] % net.card ts.observed[i]) 0 = 1 := by
              rw [hmore, hone']; exact getD_ones (Nat.mod_lt _ (hl.pos _ hob))
            unfold sight
            refine Eq.trans (congrArg (· * _) r1) (Eq.trans ?_ r2.symm)
            unfold factor
            simp only [wrap]
            rw [hone, hone2, if_neg one_ne_zero, one_mul, div_one, mul_comm]
        · refine ⟨m1, ?_, k1, ?_⟩
          · simp only [rd_lt hi, ok_bind, hm, if_true, Int.toNat_natCast, rd_lt htd, ← hrow, rd_lt (show i < row.length by omega), hd, if_false]
          · obtain ⟨s1, s2⟩ := hsame (by rw [hse]; omega)
            rw [s1, s2]; exact k2
      · refine ⟨m1, ?_, k1, ?_⟩
        · simp only [rd_lt hi, ok_bind, hm, if_false, Bool.false_eq_true]
        · obtain ⟨s1, s2⟩ := hsame (by rw [hse, if_neg hm]; decide)
          rw [s1, s2]; exact k2)
  have hall : knownAfter (K := K) net.card seen ts.observed ts.observed.length = vision net.card seen := by rw [hseen]; exact knownAfter_all hrl
  rw [hall] at e3
  refine ⟨m', _, ?_, e2, ?_, e3⟩
  · rw [e1, ok_bind]
  · intro v hv
    simp only [moreAfter]
    rw [if_neg (by simp [hv])]

/-- what is seen of all variables is what is seen of the marked ones and of the others -/
theorem sight_parts {net : Net K} (hl : Local net) (marked : Nat → Bool) (observed : List Nat) (data : List (List Int)) (t : Nat) (x : Asg) :
    sight net (vision net.card (dataSees (fun v => !marked v) observed data t)) x * sight net (vision net.card (dataSees marked observed data t)) x =
      sight net (vision (K := K) net.card (dataSees (fun _ => true) observed data t)) x := by
  unfold sight
  rw [← List.prod_map_mul]
  congr 1
  apply List.map_congr_left
  intro v hv
  have hone : (List.replicate (net.card v) (1 : K)).getD (x v % net.card v) 0 = 1 := getD_ones (Nat.mod_lt _ (hl.pos v hv))
  unfold vision dataSees rowSees
  by_cases h : marked v
  · simp only [h, Bool.not_true, Bool.false_eq_true, if_false, if_true]
    rw [if_pos (by decide : (-1 : Int) < 0), hone, one_mul]
  · simp only [h, Bool.not_false, Bool.false_eq_true, if_false, if_true]
    rw [if_pos (by decide : (-1 : Int) < 0), hone, mul_one]

theorem sum_slate {f : NetFile K} (hf : f.Valid) (ht : f.Temporal) (hist : Bool) (seen : Nat → Int) :
    sumOver f.net.card f.net.vars (fun x => repd f.net (slateOf f.net hist) x * sight f.net (vision f.card seen) x) (fun _ => 0) =
      f.recordWeight (hist = false) seen :=
  sumOver_legal (fun _ hz => slate_weight hf ht hist seen hz) _ _ (fun v hv hn => absurd hv hn)

/-- the two numbers of a record -/
noncomputable def recordMasses (f : NetFile K) (marked : Nat → Bool) (ts : TimeSeries) (t : Nat) : K × K :=
  (f.recordWeight (t = 0) (dataSees (fun v => !marked v) ts.observed ts.data t), f.recordWeight (t = 0) (dataSees (fun _ => true) ts.observed ts.data t))

theorem likelihoodStep_spec {f : NetFile K} (hf : f.Valid) (ht : f.Temporal) (marked : Nat → Bool) {ts : TimeSeries} (hts : About f ts) {t : Nat}
    (hlt : t < ts.length) {m : Model K} (h : Model.Holds f.net m (slateOf f.net (decide (0 < t)))) (l : List (K × K)) :
    ∃ m', likelihoodStep marked ts t (l, m) = ok (l ++ [recordMasses f marked ts t], m') ∧ Model.Holds f.net m' (slateOf f.net true) := by
  have hl := net_local hf
  obtain ⟨m1, w1, e1, k1, u1, c1⟩ := h.carries.insertMore hl hts.wf hts.nodup hts.sub (fun v => !marked v) (fun v _ _ => by rw [slate_evidence]) hlt
  obtain ⟨m2, e2, k2, c2, a2⟩ := c1.consistent
  obtain ⟨m3, e3, k3, c3, a3⟩ := c2.mass a2 (fun _ => 0)
  obtain ⟨m4, w4, e4, k4, u4, c4⟩ := c3.insertMore hl hts.wf hts.nodup hts.sub marked (fun v _ hm => by
    rw [u1 v (by simp [hm]), slate_evidence]) hlt
  obtain ⟨m5, e5, k5, c5, a5⟩ := c4.consistent
  obtain ⟨m6, e6, k6, c6, a6⟩ := c5.mass a5 (fun _ => 0)
  obtain ⟨m7, m8, e7, e8, k8, c8⟩ := c6.prepare true
  refine ⟨m8, ?_, c8⟩
  have hP : (decide (0 < t) = false) = (t = 0) := by rw [decide_eq_false_iff_not]; simp
  have s1 := sum_slate hf ht (decide (0 < t)) (dataSees (fun v => !marked v) ts.observed ts.data t)
  have s2 := sum_slate hf ht (decide (0 < t)) (dataSees (fun _ => true) ts.observed ts.data t)
  simp only [hP] at s1 s2
  have s2' : sumOver f.net.card f.net.vars (fun x => repd f.net (slateOf f.net (decide (0 < t))) x *
      sight f.net (vision f.net.card (dataSees (fun v => !marked v) ts.observed ts.data t)) x *
      sight f.net (vision f.net.card (dataSees marked ts.observed ts.data t)) x) (fun _ => 0) =
      f.recordWeight (t = 0) (dataSees (fun _ => true) ts.observed ts.data t) := by
    rw [← s2]
    refine sumOver_congr' fun x => ?_
    rw [mul_assoc, sight_parts hl]
    rfl
  unfold likelihoodStep recordMasses
  simp only [e1, e2, e3, e4, e5, e6, e7, e8, ok_bind]
  rw [s2']
  erw [s1]

theorem likelihoodAll_spec {f : NetFile K} (hf : f.Valid) (ht : f.Temporal) (marked : Nat → Bool) {set : List TimeSeries}
    (hset : ∀ ts ∈ set, About f ts) {m : Model K} {w : World K} {T : Asg → K} (h : Model.Carries f.net m w T) (l : List (List (K × K))) :
    ∃ m', set.foldlM (fun (st : List (List (K × K)) × Model K) ts => do
        let m ← st.2.reset
        let m ← m.usePriors false
        let (r, m) ← loop ts.length (likelihoodStep marked ts) ([], m)
        ok (st.1 ++ [r], m)) (l, m) = ok (l ++ set.map (fun ts => (List.range ts.length).map (recordMasses f marked ts)), m') := by
  induction set generalizing m w T l with
  | nil => exact ⟨m, by simp [List.foldlM]⟩
  | cons ts set ih =>
    obtain ⟨m1, m2, e1, e2, k2, c2⟩ := h.prepare false
    obtain ⟨r, e3, w3, c3⟩ := loop_inv (n := ts.length) (s := (([] : List (K × K)), m2)) (f := likelihoodStep marked ts)
      (fun t st => st.1 = (List.range t).map (recordMasses f marked ts) ∧ Model.Holds f.net st.2 (slateOf f.net (decide (0 < t))))
      ⟨rfl, c2⟩ (by
        rintro t hlt ⟨l, m⟩ ⟨h1, h2⟩
        obtain ⟨m', g1, g2⟩ := likelihoodStep_spec hf ht marked (hset ts (by simp)) hlt h2 l
        refine ⟨_, g1, ?_, by simpa using g2⟩
        simp only at h1 ⊢
        rw [h1, List.range_succ, List.map_append]
        rfl)
    obtain ⟨l3, m3⟩ := r
    simp only at w3 c3
    obtain ⟨m4, e4⟩ := ih (fun ts' h' => hset ts' (by simp [h'])) c3.carries (l ++ [l3])
    refine ⟨m4, ?_⟩
    rw [List.foldlM_cons]
    simp only [e1, e2, e3, ok_bind]
    refine e4.trans ?_
    rw [w3]
    simp

/-! ## Joint probabilities -/

theorem Model.Sound.joint_fails {f : NetFile K} (hf : f.Valid) {m : Model K} (h : Model.Sound f.net m) (hc : 2 ≤ m.tree.cliques.length) {vars : List Nat}
    (hv : vars ≠ []) (hn : vars.Nodup) (hs : ∀ v ∈ vars, v ∈ f.vars) (p : Potential K) (m' : Model K) : m.getJointProbability vars ≠ ok (some p, m') := by
  intro h0
  obtain ⟨cl, s, d, l, sp, g1, g2, g3, g4, g5, g6⟩ := Props.first_neighbour h hc
  unfold Model.getJointProbability at h0
  rw [JTree.unmarkAll_eq, ok_bind] at h0
  obtain ⟨⟨o, t⟩, h3, h0⟩ := bind_ok h0
  cases o with
  | none => cases h0
  | some q =>
    have hcard : ∀ v, (m.var v).card = f.card v := h.card
    have hcv : ∀ v ∈ cl.vars, v ∈ f.vars := by
      intro v hv
      have := h.varsOf_sub (c := 0) v (by rw [JTree.varsOf_eq g1]; exact hv)
      exact this
    refine JTree.gather_fails (t := m.tree.bare) hv _ (cl := { cl with mark := false }) (c := 0) (s := s) (l := l) (sp := sp) (d := d) ?_ g2 g3 g4 ?_ g6 ?_ ?_ ?_ hn
      (h.typed.clq 0 cl g1).1 h3
    · unfold JTree.bare
      simp only [List.getElem?_map, g1, Option.map_some]
    · unfold JTree.bare; simpa using g5
    · unfold JTree.markOf JTree.bare
      simp only [List.getElem?_map, List.getElem?_eq_getElem g5, Option.map_some]
    · intro v hv
      show 0 < (m.var v).card
      rw [hcard]; exact hf.states v (hs v hv)
    · intro v hv
      show 0 < (m.var v).card
      rw [hcard]; exact hf.states v (hcv v hv)

theorem normalise_zero {p : Potential K} (hs : p.data.sum = 0) : p.normalise = ok p := by
  unfold Potential.normalise
  have : p.size = p.data.length := rfl
  rw [this, Props.normaliseArray_full, ok_bind, if_pos hs]

theorem Model.Carries.joint_single {f : NetFile K} (hf : f.Valid) {m : Model K} {w : World K} {T : Asg → K} (h : Model.Carries f.net m w T)
    (ha : m.tree.Agrees f.net.card (m.tree.st f.net.card)) (hlen : m.tree.cliques.length = 1) {vars : List Nat} (hv : vars ≠ []) (hn : vars.Nodup)
    (hs : ∀ v ∈ vars, v ∈ f.vars) :
    ∃ q m', m.getJointProbability vars = ok (some q, m') ∧ TableOn f.card vars q ∧
      (sumOver f.card f.vars T (fun _ => 0) ≠ 0 →
        ∀ x, sem f.card vars q x = sumOver f.card (without f.vars vars) T x / sumOver f.card f.vars T (fun _ => 0)) := by
  obtain ⟨cl, hcl⟩ : ∃ cl, m.tree.cliques[0]? = some cl := ⟨_, List.getElem?_eq_getElem (by omega)⟩
  obtain ⟨c1, c2, _⟩ := h.sound.typed.clq 0 cl hcl
  have hvars : m.tree.varsOf 0 = cl.vars := JTree.varsOf_eq hcl
  have hsub : vars ⊆ cl.vars := by
    intro v hv
    obtain ⟨c, hc, hvc⟩ := (h.sound.cover v).1 (hs v hv)
    have : c = 0 := by omega
    subst this
    rw [← hvars]; exact hvc
  have hseps : cl.sepsets = [] := by
    obtain ⟨L, hL⟩ := h.sound.good
    obtain ⟨F, hF⟩ := JTree.Good.rooted hL h.sound.typed (c := 0) (by omega)
    cases F with
    | cons s d k r =>
      have h4 := hF.sub.lt d (by simp [Forest.nodes])
      have hd := hF.sub.nodup
      have : d = 0 := by omega
      subst this
      simp [Forest.nodes] at hd
    | nil =>
      have ht := hF.sub.tops
      have e : (m.tree.adj 0).filter (fun s => some s ≠ none) = m.tree.adj 0 := by simp
      rw [e] at ht
      unfold JTree.adj at ht
      rw [hcl] at ht
      exact ht
  have hcard : (fun v => (m.var v).card) = f.card := funext h.sound.card
  have hcl' : m.tree.bare.cliques[0]? = some { cl with mark := false } := by
    unfold JTree.bare
    simp only [List.getElem?_map, hcl, Option.map_some]
  obtain ⟨p, t', g1, _, g3, g4⟩ := JTree.gather_single (card := f.card) hv hn m.tree.bare.cliques.length hcl' hseps hsub c1 c2
  have hphi : m.tree.phi f.net.card 0 = sem f.net.card cl.vars cl.p := by
    funext x; unfold JTree.phi; rw [hcl]
  have hsem : ∀ x, sem f.card vars p x = sumOver f.card (without f.vars vars) T x := by
    intro x
    rw [g4]
    have := h.part ha (c := 0) (by omega) (B := vars) (fun v hv => by rw [hvars]; exact hsub hv) x
    rw [hphi, hvars] at this
    exact this
  have hnd : f.vars.Nodup := hf.sorted.imp ne_of_lt
  have hsum : p.data.sum = sumOver f.card f.vars T (fun _ => 0) := by
    rw [data_sum hn g3 (fun _ => 0), sumOver_congr' hsem, ← sumOver_append]
    refine sumOver_perm ?_ _ _
    rw [List.perm_ext_iff_of_nodup _ hnd]
    · intro u
      rw [List.mem_append, mem_without]
      constructor
      · rintro (hu | hu)
        · exact hs u hu
        · exact hu.1
      · intro hu
        by_cases e : u ∈ vars
        · exact Or.inl e
        · exact Or.inr ⟨hu, e⟩
    · refine List.nodup_append.mpr ⟨hn, hnd.filter _, ?_⟩
      intro a ha b hb e
      subst e
      exact (mem_without.mp hb).2 ha
  by_cases hz : p.data.sum = 0
  · refine ⟨p, { m with tree := t' }, ?_, g3, fun hne => absurd (hsum.symm.trans hz) hne⟩
    unfold Model.getJointProbability
    rw [JTree.unmarkAll_eq, ok_bind, hcard, g1, ok_bind]
    simp only
    rw [normalise_zero hz, ok_bind]
  · obtain ⟨q, q1, q2, q3⟩ := Props.normalise_joint g3 hz
    refine ⟨q, { m with tree := t' }, ?_, q2, ?_⟩
    · unfold Model.getJointProbability
      rw [JTree.unmarkAll_eq, ok_bind, hcard, g1, ok_bind]
      simp only
      rw [q1, ok_bind]
    · intro _ x
      rw [q3, hsum, hsem]

/-! ## Freeing memory -/

theorem freeBlock_new {b : Block} {l : List Block} (h : b ∉ l) : freeBlock b l = ok (b :: l) := if_neg h

theorem freeBlock_mono {b : Block} {l l' : List Block} (h : freeBlock b l = ok l') : ∀ c ∈ l, c ∈ l' := by
  unfold freeBlock at h
  split at h
  · cases h
  · cases h
    intro c hc
    exact List.mem_cons_of_mem _ hc

theorem freeRows_mono {n k : Nat} {l l' : List Block} (h : loop k (fun t freed => freeBlock (.row n t) freed) l = ok l') : ∀ c ∈ l, c ∈ l' := by
  induction k generalizing l' with
  | zero => cases h; exact fun c hc => hc
  | succ k ih =>
    rw [loop_succ] at h
    obtain ⟨l1, h1, h2⟩ := bind_ok h
    exact fun c hc => freeBlock_mono h2 c (ih h1 c hc)

/-- a series of which an array was freed before cannot be freed -/
theorem freeSeries_twice {n : Nat} {ts : TimeSeries} {l : List Block} (h : .hidden n ∈ l ∨ 0 < ts.numObserved ∧ .observed n ∈ l) : freeSeries n ts l = ub := by
  cases hr : freeSeries n ts l with
  | ub => rfl
  | ok l' =>
    exfalso
    unfold freeSeries at hr
    obtain ⟨l1, h1, hr⟩ := bind_ok hr
    obtain ⟨l2, h2, hr⟩ := bind_ok hr
    obtain ⟨l3, h3, hr⟩ := bind_ok hr
    have m1 : ∀ c ∈ l, c ∈ l1 := by
      split at h1
      · obtain ⟨l0, g1, g2⟩ := bind_ok h1
        exact fun c hc => freeBlock_mono g2 c (freeRows_mono g1 c hc)
      · cases h1; exact fun c hc => hc
    have m2 := freeBlock_mono h2
    rcases h with h | ⟨hp, h⟩
    · unfold freeBlock at h2
      rw [if_pos (m1 _ h)] at h2
      cases h2
    · rw [if_pos hp] at h3
      unfold freeBlock at h3
      rw [if_pos (m2 _ (m1 _ h))] at h3
      cases h3

/-- the blocks of the series before number `n` and those allocated for the variables -/
def Block.Before (n : Nat) : Block → Prop
  | .chosen => True
  | .hidden k => k < n
  | .observed k => k < n
  | .row k _ => k < n
  | .data k => k < n
  | .series k => k < n
  | .set => False

theorem freeSeries_once {n : Nat} (ts : TimeSeries) {l : List Block} (h : ∀ b ∈ l, b.Before n) :
    ∃ l', freeSeries n ts l = ok l' ∧ ∀ b ∈ l', b.Before (n + 1) := by
  have hup : ∀ b ∈ l, b.Before (n + 1) := by
    intro b hb
    have := h b hb
    cases b <;> simp only [Block.Before] at this ⊢ <;> omega
  obtain ⟨l1, e1, p1⟩ : ∃ l1, (if 0 < ts.numObserved then do
      let freed ← loop ts.length (fun t freed => freeBlock (.row n t) freed) l
      freeBlock (.data n) freed
    else ok l) = ok l1 ∧ ∀ b ∈ l1, b.Before n ∨ b = .data n ∨ ∃ t, b = .row n t := by
    by_cases hp : 0 < ts.numObserved
    · rw [if_pos hp]
      obtain ⟨l0, g1, g2⟩ := loop_inv (n := ts.length) (s := l) (f := fun t freed => freeBlock (.row n t) freed)
        (fun k l' => ∀ b ∈ l', b.Before n ∨ ∃ t, t < k ∧ b = .row n t) (fun b hb => Or.inl (h b hb)) (by
          intro i _ l' hl'
          refine ⟨_, freeBlock_new (fun hm => ?_), ?_⟩
          · rcases hl' _ hm with h1 | ⟨t, ht, h1⟩
            · simp [Block.Before] at h1
            · cases h1; omega
          · intro b hb
            rcases List.mem_cons.1 hb with rfl | hb
            · exact Or.inr ⟨i, by omega, rfl⟩
            · rcases hl' b hb with h1 | ⟨t, ht, h1⟩
              · exact Or.inl h1
              · exact Or.inr ⟨t, by omega, h1⟩)
      rw [g1, ok_bind]
      refine ⟨_, freeBlock_new (fun hm => ?_), ?_⟩
      · rcases g2 _ hm with h1 | ⟨t, ht, h1⟩
        · simp [Block.Before] at h1
        · cases h1
      · intro b hb
        rcases List.mem_cons.1 hb with rfl | hb
        · exact Or.inr (Or.inl rfl)
        · rcases g2 b hb with h1 | ⟨t, ht, h1⟩
          · exact Or.inl h1
          · exact Or.inr (Or.inr ⟨t, h1⟩)
    · rw [if_neg hp]
      exact ⟨l, rfl, fun b hb => Or.inl (h b hb)⟩
  have n1 : (.hidden n : Block) ∉ l1 := by
    intro hm
    rcases p1 _ hm with h1 | h1 | ⟨t, h1⟩
    · simp [Block.Before] at h1
    · cases h1
    · cases h1
  have n2 : (.observed n : Block) ∉ .hidden n :: l1 := by
    intro hm
    rcases List.mem_cons.1 hm with h1 | hm
    · cases h1
    · rcases p1 _ hm with h1 | h1 | ⟨t, h1⟩
      · simp [Block.Before] at h1
      · cases h1
      · cases h1
  have n3 : (.series n : Block) ∉ l1 := by
    intro hm
    rcases p1 _ hm with h1 | h1 | ⟨t, h1⟩
    · simp [Block.Before] at h1
    · cases h1
    · cases h1
  have p1' : ∀ b ∈ l1, b.Before (n + 1) := by
    intro b hb
    rcases p1 b hb with h1 | rfl | ⟨t, rfl⟩
    · cases b <;> simp only [Block.Before] at h1 ⊢ <;> omega
    · simp [Block.Before]
    · simp [Block.Before]
  unfold freeSeries
  rw [e1, ok_bind, freeBlock_new n1, ok_bind]
  by_cases hp : 0 < ts.numObserved
  · rw [if_pos hp, freeBlock_new n2, ok_bind]
    refine ⟨_, freeBlock_new (by simp [n3]), ?_⟩
    intro b hb
    simp only [List.mem_cons] at hb
    rcases hb with rfl | rfl | rfl | hb
    · simp [Block.Before]
    · simp [Block.Before]
    · simp [Block.Before]
    · exact p1' b hb
  · rw [if_neg hp, ok_bind]
    refine ⟨_, freeBlock_new (by simp [n3]), ?_⟩
    intro b hb
    simp only [List.mem_cons] at hb
    rcases hb with rfl | rfl | hb
    · simp [Block.Before]
    · simp [Block.Before]
    · exact p1' b hb

theorem freeAll_once (set : List TimeSeries) : ∃ l, loop set.length (fun n freed => do
    let ts ← rd set n
    freeSeries n ts freed) [.chosen] = ok l ∧ (.set : Block) ∉ l := by
  obtain ⟨l, e, p⟩ := loop_inv (n := set.length) (s := [Block.chosen]) (f := fun n freed => do
      let ts ← rd set n
      freeSeries n ts freed) (fun n l => ∀ b ∈ l, b.Before n) (by intro b hb; simp at hb; subst hb; trivial) (by
        intro i hi l hl
        obtain ⟨l', h1, h2⟩ := freeSeries_once set[i] hl
        exact ⟨l', by rw [rd_lt hi, ok_bind, h1], h2⟩)
  exact ⟨l, e, fun hm => p _ hm⟩

/-! ## `nipjoint` -/

/-- the end of `nipjoint` -/
def jointEnd (set : List TimeSeries) (m1 m2 : K) (m : Model K) (r : Option (List Nat × Option Block)) : Res (Option (JointReport K)) :=
  match r with
  | none => ok none
  | some (vs, block) => do
    let (p, _) ← m.getJointProbability vs
    if vs.length = 0 then ub
    else match p with
      | none => ub
      | some p => do
        let freed ← (match block with
          | some b => freeBlock b []
          | none => ok [])
        let freed ← loop set.length (fun n freed => do
          let ts ← rd set n
          freeSeries n ts freed) freed
        let _ ← freeBlock .set freed
        ok (some { vars := vs, table := p, m1 := m1, m2 := m2 })

theorem nipjoint_front {f : NetFile K} (hf : f.Valid) (ht : f.Temporal) (x : VarTexts) (names : List (List Char)) {ts : TimeSeries} (rest : List TimeSeries)
    (hts : About f ts) (hpos : 0 < ts.length) {m : Model K} (h : Model.Holds f.net m (World.fresh f.net)) :
    ∃ m' w', nipjoint x f.vars names (ts :: rest) m = jointEnd (ts :: rest) (f.recordWeight True (fun _ => -1))
        (f.recordWeight True (dataSees (fun _ => true) ts.observed ts.data 0)) m' (jointVars x f.vars names ts) ∧
      Model.Carries f.net m' w' (fun x => repd f.net (slateOf f.net false) x * sight f.net (vision f.net.card (dataSees (fun _ => true) ts.observed ts.data 0)) x) ∧
      m'.tree.Agrees f.net.card (m'.tree.st f.net.card) ∧ m'.tree.cliques.length = m.tree.cliques.length := by
  have hl := net_local hf
  obtain ⟨m1, e1, k1, c1⟩ := Model.usePriors_spec h false
  obtain ⟨m2, e2, k2, c2, a2⟩ := c1.carries.consistent
  obtain ⟨m3, e3, k3, c3, a3⟩ := c2.mass a2 (fun _ => 0)
  obtain ⟨m4, e4, k4, c4⟩ := c3.insert hl hts.wf hts.nodup hts.sub (fun _ => true) rfl hpos
  obtain ⟨m5, e5, k5, c5, a5⟩ := c4.consistent
  obtain ⟨m6, e6, k6, c6, a6⟩ := c5.mass a5 (fun _ => 0)
  have s2 := sum_slate hf ht false (dataSees (fun _ => true) ts.observed ts.data 0)
  have s1 := sum_slate hf ht false (fun _ => -1)
  simp only [true_iff, eq_self_iff_true] at s1 s2
  have hone : ∀ x, sight f.net (vision (K := K) f.card (fun _ => -1)) x = 1 := by
    intro x
    unfold sight
    rw [List.prod_eq_one]
    intro a ha
    obtain ⟨v, hv, rfl⟩ := List.mem_map.mp ha
    rw [vision_unseen (by decide)]
    exact getD_ones (Nat.mod_lt _ (hl.pos v hv))
  simp only [hone, mul_one] at s1
  refine ⟨m6, _, ?_, c6, a6, ?_⟩
  · unfold nipjoint jointEnd
    rw [Nat.cast_zero] at e4
    simp only [e1, e2, e3, e4, e5, e6, ok_bind]
    erw [s1, s2]
    rfl
  · exact JTree.skel_len ((k1.trans (k2.trans (k3.trans (k4.trans (k5.trans k6))))).1.skel)

end Nip
