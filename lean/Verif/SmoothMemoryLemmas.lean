import Verif.SmoothMemory
import Verif.Spec.SmoothMemory
import Verif.LikelihoodMemoryLemmas

/-!
# Lemmas about forward-backward inference when memory runs out
-/

namespace Nip

open Res Spec

set_option linter.unusedSectionVars false

variable {K : Type} [Field K] [LinearOrder K] [IsStrictOrderedRing K] {card : Nat → Nat} {vars : List Nat}

theorem Demands.next {α β : Type} {fails : Nat → Bool} {w : Loans} {n1 n2 : Nat} {run : Res (α × Loans)} {a : α} {f : α × Loans → Res (β × Loans)} {c : β}
    (h1 : Demands fails w n1 run a) (h2 : ∀ u, Demands fails u n2 (f (a, u)) c) : Demands fails w (n1 + n2) (run >>= f) c := by
  constructor
  · intro hg
    obtain ⟨g1, g2⟩ := Model.split_granted.mp hg
    rw [h1.1 g1]
    refine Eq.trans ((h2 ⟨w.tried + n1, w.held⟩).1 g2) ?_
    simp [Nat.add_assoc]
  · intro hr
    by_cases g1 : Granted fails w.tried (w.tried + n1)
    · rw [h1.1 g1]
      exact (h2 ⟨w.tried + n1, w.held⟩).2 (Model.refused_of fun g2 => Model.not_both hr (Model.split_granted.mpr ⟨g1, g2⟩))
    · rw [h1.2 (Model.refused_of g1)]
      rfl

namespace Model

theorem finishPass_settled {s : Interface} {fwd : Bool} {m m' : Model K} {num : Potential K} {den : Option (Potential K)} (h : Settled vars m) (hm : finishPass s fwd m num den = ok m') :
    Settled vars m' := by
  unfold finishPass at hm
  split at hm
  · simp only [ok.injEq] at hm
    subst hm
    exact h
  · split at hm
    · cases hm
    · obtain ⟨cl, _, hm⟩ := bind_ok hm
      obtain ⟨⟨_, mp⟩, _, hm⟩ := bind_ok hm
      obtain ⟨⟨_, p⟩, _, hm⟩ := bind_ok hm
      obtain ⟨cs, _, hm⟩ := bind_ok hm
      simp only [ok.injEq] at hm
      subst hm
      exact h.tree _

theorem finishBackIn_any (fails : Nat → Bool) (w : Loans) {m : Model K} (h : Fits' card vars m) {s : Interface} (hs : Link card vars m s) {num den : Potential K}
    (hnum : TableOn card s.out num) (hden : TableOn card s.out den) {m' : Model K} (hm : finishPass s false m num (some den) = ok m') :
    Demands fails w (if s.out = [] then 0 else 1) (finishPassIn fails s false m num (some den) w) m' := by
  unfold finishPass at hm
  unfold finishPassIn
  by_cases hne : s.out = []
  · have hl : s.out.length = 0 := by rw [hne]; rfl
    rw [if_pos hl] at hm
    simp only [ok.injEq] at hm
    subst hm
    rw [if_pos hne, if_pos hl]
    exact Demands.zero rfl
  · have hl : ¬ s.out.length = 0 := by simpa using hne
    rw [if_neg hl] at hm
    rw [if_neg hne, if_neg hl]
    obtain ⟨c, c1, c2, c3⟩ := hs.cliqueOut hne
    obtain ⟨cl, hcl⟩ : ∃ cl, m.tree.cliques[c]? = some cl := ⟨_, List.getElem?_eq_getElem c2⟩
    rw [JTree.varsOf_eq hcl] at c3
    obtain ⟨n1, n2, n3⟩ := h.safe.typed.clq c cl hcl
    have hlen : s.out.length ≤ cl.vars.length := (hs.out.1.subperm c3).length_le
    have hdim : num.dim = s.out.length := by unfold Potential.dim; rw [hnum.card_eq, List.length_map]
    have hdim' : den.dim = s.out.length := by unfold Potential.dim; rw [hden.card_eq, List.length_map]
    have hpd : cl.p.dim = cl.vars.length := by unfold Potential.dim; rw [n2.card_eq, List.length_map]
    simp only [Bool.false_eq_true, if_false, c1, rd_eq_ok.mpr hcl, ok_bind] at hm ⊢
    obtain ⟨⟨e, o⟩, hmap, hm⟩ := bind_ok hm
    rcases mapperIn_cases fails w hlen hmap with ⟨k1, _⟩ | ⟨_, k2, ⟨l, k3⟩, k4⟩ | ⟨_, k2, k3⟩
    · exact absurd k1 hne
    · refine Demands.one (fun _ => ?_) (fun hf => by rw [k2] at hf; cases hf)
      subst k3
      simp only at hm
      obtain ⟨⟨e', p⟩, hu, hm⟩ := bind_ok hm
      simp only at hm
      obtain ⟨cs, hw, hm⟩ := bind_ok hm
      simp only [ok.injEq] at hm
      subst hm
      rw [k4]
      simp only [ok_bind, hu, hw]
      rfl
    · refine Demands.one (fun hf => by rw [k2] at hf; cases hf) (fun _ => ?_)
      rw [k3]
      simp only [ok_bind, Option.getD_none]
      rw [update_null (table_pos n2) (by omega) (by omega) (by omega)]
      rfl

theorem startBackIn_any (fails : Nat → Bool) (w : Loans) {m : Model K} (h : Fits' card vars m) {s : Interface} (hs : Link card vars m s) {a : Potential K}
    (ha : TableOn card s.out a) {a' : Potential K} (hm : startPass s false m a = ok a') :
    Demands fails w (if s.out = [] then 0 else 1) (startPassIn fails s false m a w) a' := by
  unfold startPass at hm
  unfold startPassIn
  by_cases hne : s.out = []
  · have hl : s.out.length = 0 := by rw [hne]; rfl
    rw [if_pos hl] at hm
    simp only [ok.injEq] at hm
    subst hm
    rw [if_pos hne, if_pos hl]
    exact Demands.zero rfl
  · have hl : ¬ s.out.length = 0 := by simpa using hne
    rw [if_neg hl] at hm
    rw [if_neg hne, if_neg hl]
    obtain ⟨c, c1, c2, c3⟩ := hs.cliqueIn hne
    obtain ⟨cl, hcl⟩ : ∃ cl, m.tree.cliques[c]? = some cl := ⟨_, List.getElem?_eq_getElem c2⟩
    rw [JTree.varsOf_eq hcl] at c3
    obtain ⟨n1, n2, n3⟩ := h.safe.typed.clq c cl hcl
    have hpl : s.prev.length = s.out.length := by have := congrArg List.length hs.cards; simpa using this.symm
    have hpne : s.prev ≠ [] := by intro e; rw [e] at hpl; exact hl hpl.symm
    have hlen : s.prev.length ≤ cl.vars.length := (hs.prev.1.subperm c3).length_le
    have hdim : a.dim = s.out.length := by unfold Potential.dim; rw [ha.card_eq, List.length_map]
    have hpd : cl.p.dim = cl.vars.length := by unfold Potential.dim; rw [n2.card_eq, List.length_map]
    simp only [Bool.false_eq_true, if_false, c1, rd_eq_ok.mpr hcl, ok_bind] at hm ⊢
    obtain ⟨⟨e, o⟩, hmap, hm⟩ := bind_ok hm
    rcases mapperIn_cases fails w hlen hmap with ⟨k1, _⟩ | ⟨_, k2, ⟨l, k3⟩, k4⟩ | ⟨_, k2, k3⟩
    · exact absurd k1 hpne
    · refine Demands.one (fun _ => ?_) (fun hf => by rw [k2] at hf; cases hf)
      subst k3
      simp only at hm
      obtain ⟨⟨e', p⟩, hu, hm⟩ := bind_ok hm
      simp only at hm
      rw [k4]
      simp only [ok_bind, hu, hm]
      rfl
    · refine Demands.one (fun hf => by rw [k2] at hf; cases hf) (fun _ => ?_)
      rw [k3]
      simp only [ok_bind, Option.getD_none]
      rw [general_null (table_pos n2) (by omega) (by omega)]
      rfl

/-- what is kept from round to round -/
structure Stored (card : Nat → Nat) (vars : List Nat) (s : Interface) (b n : Nat) (m : Model K) (l : List (Potential K)) : Prop where
  fit : Fits' card vars m
  settled : Settled vars m
  link : Link card vars m s
  letters : Letters (fun _ : K => True) card s n l
  seps : (m.tree.sepsets.filter (fun s => s.vars ≠ [])).length = b

theorem Stored.step {s : Interface} {b n : Nat} {m m' : Model K} {l l' : List (Potential K)} (h : Stored card vars s b n m l) (hs : Same m m') (hf : Fits' card vars m') (he : Settled vars m')
    (hl : Letters (fun _ : K => True) card s n l') : Stored card vars s b n m' l' :=
  ⟨hf, he, h.link.same hs, hl, (seps_same hs).trans h.seps⟩

theorem linked_requests {s : Interface} {linked : Bool} (hl : linked = decide (s.out ≠ [])) : (if s.out = [] then 0 else 1) = (if linked then 1 else 0) := by
  rw [hl]
  by_cases hne : s.out = [] <;> simp [hne]

theorem stored_arrives (fails : Nat → Bool) {s : Interface} {b n : Nat} {m : Model K} {l : List (Potential K)} (h : Stored card vars s b n m l) {t : Nat} (ht : t ≤ n) {linked : Bool}
    (hl : linked = decide (s.out ≠ [])) :
    ∃ m1, arriveStored s t m l = ok m1 ∧ Same m m1 ∧ Stored card vars s b n m1 l ∧ ∀ u, Demands fails u (arrivalRequests linked t) (arriveStoredIn fails s t m l u) m1 := by
  obtain ⟨m1, a1, a2, a3⟩ := arriveStored_any JTree.closed_all h.fit h.link ht h.letters
  have hlen := h.letters.1
  unfold arriveStored at a1
  by_cases h0 : 0 < t
  · rw [if_pos h0, rd_lt (show t - 1 < l.length by omega), ok_bind] at a1
    refine ⟨m1, by unfold arriveStored; rw [if_pos h0, rd_lt (show t - 1 < l.length by omega), ok_bind]; exact a1, a2, h.step a2 a3 (finishPass_settled h.settled a1) h.letters, fun u => ?_⟩
    unfold arriveStoredIn arrivalRequests
    rw [if_pos h0, rd_lt (show t - 1 < l.length by omega), ok_bind]
    simp only [h0, decide_true, Bool.and_true]
    rw [← linked_requests hl]
    exact finishPassIn_any fails u h.fit h.link (h.letters.2 _ (List.getElem_mem _)).1 a1
  · rw [if_neg h0] at a1
    simp only [ok.injEq] at a1
    subst a1
    refine ⟨m, by unfold arriveStored; rw [if_neg h0], a2, h, fun u => ?_⟩
    unfold arriveStoredIn arrivalRequests
    simp only [h0, decide_false, Bool.and_false, Bool.false_eq_true, if_false]
    exact Demands.zero rfl

/-- forgetting the evidence and using the priors -/
theorem renew (fails : Nat → Bool) {s : Interface} {b n : Nat} {m : Model K} {l : List (Potential K)} (h : Stored card vars s b n m l) (q : Bool) :
    ∃ m1 m2, m.reset = ok m1 ∧ m1.usePriors q = ok m2 ∧ Same m m2 ∧ Stored card vars s b n m2 l ∧ (∀ u, m.resetIn fails u = ok (m1, u)) ∧ ∀ u, m1.usePriorsIn fails u q = ok (m2, u) := by
  have hP : Closed (fun _ : K => True) := JTree.closed_all
  obtain ⟨m1, g1, g2, g3⟩ := reset_any hP h.fit
  obtain ⟨r1, r2⟩ := resetIn_step fails h.settled
  obtain ⟨m2, i1, i2, i3⟩ := usePriors_any hP g3 q
  obtain ⟨q1, q2⟩ := usePriorsIn_step fails (r2 m1 g1) q
  refine ⟨m1, m2, g1, i1, g2.trans i2, h.step (g2.trans i2) i3 (q2 m2 i1) h.letters, fun u => ?_, fun u => ?_⟩
  · have e := r1 u
    rw [g1, ok_bind] at e
    exact e
  · have e := q1 u
    rw [i1, ok_bind] at e
    exact e

theorem smoothForwardIn_any (fails : Nat → Bool) (w : Loans) {s : Interface} {b : Nat} {st : Smoother K} {ts ts' : TimeSeries} (h : Stored card vars s b ts.length st.model st.messages)
    (hts : Usable vars ts) (marked : Nat → Bool) {t : Nat} (ht : t < ts.length) {row : List Int} (hrow : ts.data[t]? = some row) (hob : ts'.observed = ts.observed)
    (hlen : ts'.length = ts.length) (hnv : ts'.numVars = ts.numVars) (hnh : ts'.numHidden = ts.numHidden) {linked : Bool} (hl : linked = decide (s.out ≠ []))
    {arr n later : Nat} (harr : arr = arrivalRequests linked t) (hn : n = (presentValues marked ts.observed row).length) (hlater : later = laterRequests linked b)
    (hthin : ts'.data[t]? = some (thinRow fails marked (w.tried + arr) ts.observed row)) :
    ∃ st', smoothForward none s marked ts' t st = ok st' ∧ Stored card vars s b ts.length st'.model st'.messages ∧
      (Granted fails w.tried (w.tried + arr) ∧ Granted fails (w.tried + arr + n) (w.tried + arr + n + later) →
        smoothForwardIn fails s marked ts t (st, w) = ok (st', ⟨w.tried + (arr + n + later), w.held⟩)) ∧
      (¬ (Granted fails w.tried (w.tried + arr) ∧ Granted fails (w.tried + arr + n) (w.tried + arr + n + later)) → smoothForwardIn fails s marked ts t (st, w) = ub) := by
  have hP : Closed (fun _ : K => True) := JTree.closed_all
  obtain ⟨m1, a1, a2, a3, hd1⟩ := stored_arrives fails h (le_of_lt ht) hl
  rw [← harr] at hd1
  obtain ⟨m2, b1, b2, b3, b4, b5⟩ := insertStepIn_any fails ⟨w.tried + arr, w.held⟩ a3.fit a3.settled hts marked ht hrow hob hlen hnv hnh hthin
  rw [← hn] at b2
  have h2 := a3.step b4 b5 b3 a3.letters
  obtain ⟨m3, f1, f2, f3, hs3, hd3⟩ := consistent_known fails b5 b3 h2.seps
  have h3 := h2.step f2 f3 hs3 h2.letters
  have htl : t < st.messages.length := by rw [h.letters.1]; omega
  obtain ⟨a', e1, e2⟩ := startPass_any hP f3 h3.link true (h3.letters.2 _ (List.getElem_mem htl))
  have hdst := fun u => startPassIn_any fails u f3 h3.link (h3.letters.2 _ (List.getElem_mem htl)).1 e1
  rw [linked_requests hl] at hdst
  obtain ⟨m4, m5, g1, g2, g3, g4, g5, g6⟩ := renew fails h3 (decide (1 < ts.length))
  refine ⟨{ model := m5, messages := st.messages.set t a', ll := st.ll }, ?_, h3.step g3 g4.fit g4.settled (h3.letters.set e2), ?_⟩
  · unfold smoothForward absorb
    simp only [a1, ok_bind, b1, f1, rd_lt htl, e1, wr_lt htl, g1, hlen, g2]
  have hrest : ∀ u, Demands fails u later (m2.makeConsistentIn fails u >>= fun (r : Model K × Loans) => do
      let a ← rd st.messages t
      let (a, w) ← startPassIn fails s true r.1 a r.2
      let messages ← wr st.messages t a
      let (m, w) ← r.1.resetIn fails w
      let (m, w) ← m.usePriorsIn fails w (decide (1 < ts.length))
      ok (({ model := m, messages := messages, ll := st.ll } : Smoother K), w)) { model := m5, messages := st.messages.set t a', ll := st.ll } := by
    intro u
    rw [hlater]
    unfold laterRequests
    refine Demands.next (hd3 u) fun u1 => ?_
    simp only [rd_lt htl, ok_bind]
    refine Demands.next (n2 := 0) (hdst u1) fun u2 => ?_
    refine Demands.zero ?_
    simp only [wr_lt htl, ok_bind, g5, g6]
  unfold smoothForwardIn
  by_cases hg1 : Granted fails w.tried (w.tried + arr)
  swap
  · rw [(hd1 w).2 (refused_of hg1)]
    exact ⟨fun hg => absurd hg.1 hg1, fun _ => rfl⟩
  rw [(hd1 w).1 hg1]
  simp only [ok_bind]
  rw [b2]
  simp only [ok_bind]
  by_cases hg2 : Granted fails (w.tried + arr + n) (w.tried + arr + n + later)
  · refine ⟨fun _ => ?_, fun hno => absurd ⟨hg1, hg2⟩ hno⟩
    refine Eq.trans ((hrest ⟨w.tried + arr + n, w.held⟩).1 hg2) ?_
    simp only [ok.injEq, Prod.mk.injEq, Loans.mk.injEq, true_and, and_true]
    omega
  · exact ⟨fun hg => absurd hg.2 hg2, fun _ => (hrest ⟨w.tried + arr + n, w.held⟩).2 (refused_of hg2)⟩

theorem smoothBackwardIn_any (fails : Nat → Bool) (w : Loans) {s : Interface} {b : Nat} {m : Model K} {l : List (Potential K)} {res : List (List (List K))} {ts ts' : TimeSeries}
    (h : Stored card vars s b ts.length m l) (hres : res.length = ts.length)
    (hts : Usable vars ts) (marked : Nat → Bool) {vs : List Nat} (hvs : ∀ v ∈ vs, v ∈ vars) {t : Nat} (ht : t < ts.length) {row : List Int} (hrow : ts.data[t]? = some row)
    (hob : ts'.observed = ts.observed)
    (hlen : ts'.length = ts.length) (hnv : ts'.numVars = ts.numVars) (hnh : ts'.numHidden = ts.numHidden) {linked : Bool} (hl : linked = decide (s.out ≠ []))
    {arr n later : Nat} (harr : arr = arrivalRequests linked t) (hn : n = (presentValues marked ts.observed row).length) (hlater : later = backRequests linked b ts.length t)
    (hthin : ts'.data[t]? = some (thinRow fails marked (w.tried + arr) ts.observed row)) :
    ∃ m' l' row', smoothBackward s marked ts' vs t (m, l, res) = ok (m', l', res.set t row') ∧ Stored card vars s b ts.length m' l' ∧
      (Granted fails w.tried (w.tried + arr) ∧ Granted fails (w.tried + arr + n) (w.tried + arr + n + later) →
        smoothBackwardIn fails s marked ts vs t ((m, l, res), w) = ok ((m', l', res.set t row'), ⟨w.tried + (arr + n + later), w.held⟩)) ∧
      (¬ (Granted fails w.tried (w.tried + arr) ∧ Granted fails (w.tried + arr + n) (w.tried + arr + n + later)) →
        smoothBackwardIn fails s marked ts vs t ((m, l, res), w) = ub) := by
  have hP : Closed (fun _ : K => True) := JTree.closed_all
  obtain ⟨m1, a1, a2, a3, hd1⟩ := stored_arrives fails h (le_of_lt ht) hl
  rw [← harr] at hd1
  obtain ⟨m2, b1, b2, b3, b4, b5⟩ := insertStepIn_any fails ⟨w.tried + arr, w.held⟩ a3.fit a3.settled hts marked ht hrow hob hlen hnv hnh hthin
  rw [← hn] at b2
  have h2 := a3.step b4 b5 b3 a3.letters
  have hll := h.letters.1
  have htl : t < l.length := by omega
  have hback : ∃ m3, arriveBackward s t ts.length m2 l = ok m3 ∧ Stored card vars s b ts.length m3 l ∧
      ∀ u, Demands fails u (if linked && decide (t + 1 < ts.length) then 1 else 0) (arriveBackwardIn fails s t ts.length m2 l u) m3 := by
    unfold arriveBackward arriveBackwardIn
    by_cases h0 : t + 1 < ts.length
    · have ht1 : t + 1 < l.length := by omega
      obtain ⟨m3, c1, c2, c3⟩ := finishPass_any hP b5 h2.link false (h2.letters.2 _ (List.getElem_mem ht1)) (den := some l[t]) (by rintro _ ⟨rfl⟩; exact h2.letters.2 _ (List.getElem_mem _))
      refine ⟨m3, by rw [if_pos h0, rd_lt ht1, ok_bind, rd_lt htl, ok_bind]; exact c1, h2.step c2 c3 (finishPass_settled h2.settled c1) h2.letters, fun u => ?_⟩
      rw [if_pos h0, rd_lt ht1, ok_bind, rd_lt htl, ok_bind]
      simp only [h0, decide_true, Bool.and_true]
      rw [← linked_requests hl]
      exact finishBackIn_any fails u h2.fit h2.link (h2.letters.2 _ (List.getElem_mem ht1)).1 (h2.letters.2 _ (List.getElem_mem htl)).1 c1
    · refine ⟨m2, by rw [if_neg h0], h2, fun u => ?_⟩
      rw [if_neg h0]
      simp only [h0, decide_false, Bool.and_false, Bool.false_eq_true, if_false]
      exact Demands.zero rfl
  obtain ⟨m3, c1, h3, hd3⟩ := hback
  obtain ⟨m4, f1, f2, f3, hs4, hd4⟩ := consistent_known fails h3.fit h3.settled h3.seps
  have h4 := h3.step f2 f3 hs4 h3.letters
  obtain ⟨row', m4', d1, d2, d3, _⟩ := posteriors_any hP normal_true f3 hvs
  have hpost := fun u => posteriorsIn_any fails u hs4 hvs d1
  obtain ⟨rfl, _⟩ := hpost w
  have hdep : ∃ l', departBackward s t m4' l = ok l' ∧ Letters (fun _ : K => True) card s ts.length l' ∧
      ∀ u, Demands fails u (if linked && decide (0 < t) then 1 else 0) (departBackwardIn fails s t m4' l u) l' := by
    unfold departBackward departBackwardIn
    by_cases h0 : 0 < t
    · obtain ⟨a', g1, g2⟩ := startPass_any hP f3 h4.link false (h4.letters.2 _ (List.getElem_mem htl))
      refine ⟨l.set t a', by rw [if_pos h0, rd_lt htl, ok_bind, g1, ok_bind, wr_lt htl], h4.letters.set g2, fun u => ?_⟩
      rw [if_pos h0, rd_lt htl, ok_bind]
      simp only [h0, decide_true, Bool.and_true]
      rw [← linked_requests hl]
      refine Demands.next (n2 := 0) (startBackIn_any fails u f3 h4.link (h4.letters.2 _ (List.getElem_mem htl)).1 g1) fun u1 => Demands.zero ?_
      simp only [wr_lt htl, ok_bind]
    · refine ⟨l, by rw [if_neg h0], h4.letters, fun u => ?_⟩
      rw [if_neg h0]
      simp only [h0, decide_false, Bool.and_false, Bool.false_eq_true, if_false]
      exact Demands.zero rfl
  obtain ⟨l', e1, e2, hd5⟩ := hdep
  obtain ⟨m5, m6, g1, g2, g3, g4, g5, g6⟩ := renew fails h4 (decide (1 < t))
  refine ⟨m6, l', row', ?_, h4.step g3 g4.fit g4.settled e2, ?_⟩
  · unfold smoothBackward smoothAbsorb smoothLeave
    simp only [a1, ok_bind, b1, hlen, c1, f1, d1, wr_lt (show t < res.length by omega), e1, g1, g2]
  have hrest : ∀ u, Demands fails u later (arriveBackwardIn fails s t ts.length m2 l u >>= fun (r : Model K × Loans) => do
      let (m, w) ← r.1.makeConsistentIn fails r.2
      let ((row, m), w) ← posteriorsIn fails vs m w
      let results ← wr res t row
      let (messages, w) ← departBackwardIn fails s t m l w
      let (m, w) ← m.resetIn fails w
      let (m, w) ← m.usePriorsIn fails w (decide (1 < t))
      ok ((m, messages, results), w)) (m6, l', res.set t row') := by
    intro u
    rw [hlater]
    unfold backRequests
    rw [Nat.add_assoc]
    refine Demands.next (hd3 u) fun u1 => ?_
    refine Demands.next (hd4 u1) fun u2 => ?_
    simp only [(hpost u2).2, ok_bind, wr_lt (show t < res.length by omega)]
    refine Demands.next (n2 := 0) (hd5 u2) fun u3 => ?_
    refine Demands.zero ?_
    simp only [ok_bind, g5, g6]
  unfold smoothBackwardIn
  simp only
  by_cases hg1 : Granted fails w.tried (w.tried + arr)
  swap
  · rw [(hd1 w).2 (refused_of hg1)]
    exact ⟨fun hg => absurd hg.1 hg1, fun _ => rfl⟩
  rw [(hd1 w).1 hg1]
  simp only [ok_bind]
  rw [b2]
  simp only [ok_bind]
  by_cases hg2 : Granted fails (w.tried + arr + n) (w.tried + arr + n + later)
  · refine ⟨fun _ => ?_, fun hno => absurd ⟨hg1, hg2⟩ hno⟩
    refine Eq.trans ((hrest ⟨w.tried + arr + n, w.held⟩).1 hg2) ?_
    simp only [ok.injEq, Prod.mk.injEq, Loans.mk.injEq, true_and, and_true]
    omega
  · exact ⟨fun hg => absurd hg.2 hg2, fun _ => (hrest ⟨w.tried + arr + n, w.held⟩).2 (refused_of hg2)⟩

/-- the series without the values that are lost in the backward phase -/
def lateSeries (fails : Nat → Bool) (marked : Nat → Bool) (linked : Bool) (b k : Nat) (ts : TimeSeries) : TimeSeries :=
  { ts with data := lateRows fails marked linked b ts.length k ts.observed ts.data }

theorem forwardPhaseIn_any (fails : Nat → Bool) (w : Loans) {s : Interface} {b : Nat} {st : Smoother K} {ts : TimeSeries} (h : Stored card vars s b ts.length st.model st.messages)
    (hts : Usable vars ts) (marked : Nat → Bool) {linked : Bool} (hl : linked = decide (s.out ≠ [])) (n : Nat) (hn : n ≤ ts.length) :
    ((∀ t, t < n → StepServed fails linked b w.tried (valueCount marked ts.observed ts.data) t) →
      ∃ st', loop n (smoothForward none s marked (thinned fails marked linked b w.tried ts)) st = ok st' ∧ Stored card vars s b ts.length st'.model st'.messages ∧
        loop n (smoothForwardIn fails s marked ts) (st, w) = ok (st', ⟨w.tried + stepBegins linked b (valueCount marked ts.observed ts.data) n, w.held⟩)) ∧
    (¬ (∀ t, t < n → StepServed fails linked b w.tried (valueCount marked ts.observed ts.data) t) → loop n (smoothForwardIn fails s marked ts) (st, w) = ub) := by
  induction n with
  | zero => exact ⟨fun _ => ⟨st, rfl, h, rfl⟩, fun hno => absurd (fun t ht => absurd ht (Nat.not_lt_zero t)) hno⟩
  | succ n ih =>
    obtain ⟨ih1, ih2⟩ := ih (by omega)
    rw [loop_succ, loop_succ]
    by_cases hall : ∀ t, t < n → StepServed fails linked b w.tried (valueCount marked ts.observed ts.data) t
    · obtain ⟨st1, k1, k2, k3⟩ := ih1 hall
      have hnd : n < ts.data.length := by rw [hts.wf.rows]; omega
      have hcount : valueCount marked ts.observed ts.data n = (presentValues marked ts.observed ts.data[n]).length := by
        unfold valueCount
        simp [hnd]
      have hthin : (thinned fails marked linked b w.tried ts).data[n]? =
          some (thinRow fails marked (w.tried + stepBegins linked b (valueCount marked ts.observed ts.data) n + arrivalRequests linked n) ts.observed ts.data[n]) := by
        unfold thinned thinRows
        simp [hnd]
      obtain ⟨st2, j1, j2, j3, j4⟩ := smoothForwardIn_any fails ⟨w.tried + stepBegins linked b (valueCount marked ts.observed ts.data) n, w.held⟩ k2 hts marked (t := n) (by omega)
        (List.getElem?_eq_getElem hnd) (ts' := thinned fails marked linked b w.tried ts) rfl rfl rfl rfl hl rfl hcount rfl hthin
      rw [k1, k3]
      refine ⟨fun hs => ⟨st2, j1, j2, ?_⟩, fun hno => ?_⟩
      · have := j3 (hs n (Nat.lt_add_one n))
        refine Eq.trans this ?_
        simp only [ok.injEq, Prod.mk.injEq, Loans.mk.injEq, true_and, and_true, stepBegins]
        omega
      · refine j4 (fun hs => hno fun t ht => ?_)
        rcases Nat.lt_succ_iff_lt_or_eq.mp ht with h1 | rfl
        · exact hall t h1
        · exact hs
    · rw [ih2 hall]
      exact ⟨fun hs => absurd (fun t ht => hs t (by omega)) hall, fun _ => rfl⟩

theorem backwardPhaseIn_any (fails : Nat → Bool) (k held : Nat) {s : Interface} {b : Nat} {ts : TimeSeries} (hts : Usable vars ts) (marked : Nat → Bool) {vs : List Nat} (hvs : ∀ v ∈ vs, v ∈ vars)
    {linked : Bool} (hl : linked = decide (s.out ≠ [])) : ∀ (n : Nat), n ≤ ts.length → ∀ (m : Model K) (l : List (Potential K)) (res : List (List (List K))),
    Stored card vars s b ts.length m l → res.length = ts.length →
    ((∀ t, t < n → LateServed fails linked b ts.length k (valueCount marked ts.observed ts.data) t) →
      ∃ r, loopDown n (smoothBackward s marked (lateSeries fails marked linked b k ts) vs) (m, l, res) = ok r ∧
        loopDown n (smoothBackwardIn fails s marked ts vs) ((m, l, res), ⟨k + lastRequests linked b ts.length (valueCount marked ts.observed ts.data) (ts.length - n), held⟩) =
          ok (r, ⟨k + lastRequests linked b ts.length (valueCount marked ts.observed ts.data) ts.length, held⟩)) ∧
    (¬ (∀ t, t < n → LateServed fails linked b ts.length k (valueCount marked ts.observed ts.data) t) →
      loopDown n (smoothBackwardIn fails s marked ts vs) ((m, l, res), ⟨k + lastRequests linked b ts.length (valueCount marked ts.observed ts.data) (ts.length - n), held⟩) = ub) := by
  intro n
  induction n with
  | zero => intro _ m l res _ _; exact ⟨fun _ => ⟨(m, l, res), rfl, rfl⟩, fun hno => absurd (fun t ht => absurd ht (Nat.not_lt_zero t)) hno⟩
  | succ n ih =>
    intro hn m l res h hres
    have hd : ts.length - (n + 1) = ts.length - 1 - n := by omega
    have hnd : n < ts.data.length := by rw [hts.wf.rows]; omega
    have hcount : valueCount marked ts.observed ts.data n = (presentValues marked ts.observed ts.data[n]).length := by
      unfold valueCount
      simp [hnd]
    have hthin : (lateSeries fails marked linked b k ts).data[n]? =
        some (thinRow fails marked (k + lastRequests linked b ts.length (valueCount marked ts.observed ts.data) (ts.length - 1 - n) + arrivalRequests linked n) ts.observed ts.data[n]) := by
      unfold lateSeries lateRows
      simp [hnd]
    obtain ⟨m', l', row', j1, j2, j3, j4⟩ := smoothBackwardIn_any fails ⟨k + lastRequests linked b ts.length (valueCount marked ts.observed ts.data) (ts.length - 1 - n), held⟩ h hres hts marked hvs
      (t := n) (by omega) (List.getElem?_eq_getElem hnd) (ts' := lateSeries fails marked linked b k ts) rfl rfl rfl rfl hl rfl hcount rfl hthin
    rw [hd]
    have hstep : k + lastRequests linked b ts.length (valueCount marked ts.observed ts.data) (ts.length - 1 - n) +
        (arrivalRequests linked n + valueCount marked ts.observed ts.data n + backRequests linked b ts.length n) =
        k + lastRequests linked b ts.length (valueCount marked ts.observed ts.data) (ts.length - n) := by
      rw [show ts.length - n = (ts.length - 1 - n) + 1 by omega, lastRequests, show ts.length - 1 - (ts.length - 1 - n) = n by omega]
      omega
    obtain ⟨ih1, ih2⟩ := ih (by omega) m' l' (res.set n row') j2 (by rw [List.length_set]; exact hres)
    have hplain : ∀ x, loopDown n (smoothBackward s marked (lateSeries fails marked linked b k ts) vs) (m', l', res.set n row') = ok x →
        loopDown (n + 1) (smoothBackward s marked (lateSeries fails marked linked b k ts) vs) (m, l, res) = ok x := by
      intro x hx
      show (smoothBackward s marked _ vs n (m, l, res)).bind _ = _
      rw [j1]
      exact hx
    by_cases hs : LateServed fails linked b ts.length k (valueCount marked ts.observed ts.data) n
    · have hin := j3 hs
      simp only at hin
      rw [hstep] at hin
      have hrun : loopDown (n + 1) (smoothBackwardIn fails s marked ts vs) ((m, l, res), ⟨k + lastRequests linked b ts.length (valueCount marked ts.observed ts.data) (ts.length - 1 - n), held⟩) =
          loopDown n (smoothBackwardIn fails s marked ts vs) ((m', l', res.set n row'), ⟨k + lastRequests linked b ts.length (valueCount marked ts.observed ts.data) (ts.length - n), held⟩) := by
        show (smoothBackwardIn fails s marked ts vs n _).bind _ = _
        rw [hin]
        rfl
      rw [hrun]
      refine ⟨fun hall => ?_, fun hno => ih2 fun hall => hno fun t ht => ?_⟩
      · obtain ⟨r, k1, k2⟩ := ih1 fun t ht => hall t (by omega)
        exact ⟨r, hplain r k1, k2⟩
      · rcases Nat.lt_succ_iff_lt_or_eq.mp ht with h1 | rfl
        · exact hall t h1
        · exact hs
    · refine ⟨fun hall => absurd (hall n (Nat.lt_add_one n)) hs, fun _ => ?_⟩
      show (smoothBackwardIn fails s marked ts vs n _).bind _ = _
      rw [j4 hs]
      rfl

end Model

/-- Forward-backward inference (`src/nip.c:1342-1599`) with unlimited memory and without the likelihood, if the forward phase is given the series `ts1` and the backward phase the series `ts2`, of the same length: compare
`forwardBackward`. -/
def twoPhases (s : Interface) (marked : Nat → Bool) (ts1 ts2 : TimeSeries) (vars : List Nat) (m : Model K) : Res (List (List (List K)) × Model K) := do
  let messages ← newMessages s m ts1.length
  let m ← m.reset
  let m ← m.usePriors false
  let st ← loop ts1.length (smoothForward none s marked ts1) { model := m, messages := messages, ll := 0 }
  let blank := vars.map (fun v => List.replicate (m.var v).card (0 : K))
  let (m, _, results) ← loopDown ts2.length (smoothBackward s marked ts2 vars) (st.model, st.messages, List.replicate ts2.length blank)
  ok (results, m)

theorem twoPhases_same (s : Interface) (marked : Nat → Bool) (ts : TimeSeries) (vars : List Nat) (m : Model K) :
    twoPhases s marked ts ts vars m = (forwardBackward none s marked ts vars m >>= fun r => ok (r.1, r.2.2)) := by
  unfold twoPhases forwardBackward
  cases newMessages s m ts.length with
  | ub => rfl
  | ok a =>
    simp only [ok_bind]
    cases m.reset with
    | ub => rfl
    | ok m1 =>
      simp only [ok_bind]
      cases m1.usePriors false with
      | ub => rfl
      | ok m2 =>
        simp only [ok_bind]
        cases loop ts.length (smoothForward none s marked ts) { model := m2, messages := a, ll := 0 } with
        | ub => rfl
        | ok st =>
          simp only [ok_bind]
          cases loopDown ts.length (smoothBackward s marked ts vars) (st.model, st.messages, List.replicate ts.length (vars.map (fun v => List.replicate (m2.var v).card (0 : K)))) with
          | ub => rfl
          | ok r => rfl

namespace Model

/-- Forward-backward inference with failing allocations. -/
theorem smoothIn_any (fails : Nat → Bool) (w : Loans) {m : Model K} (h : Fits' card vars m) (hset : Settled vars m) {s : Interface} (hs : Link card vars m s)
    (hpos : ∀ v ∈ vars, 0 < card v) {b : Nat} (hb : (m.tree.sepsets.filter (fun s => s.vars ≠ [])).length = b) {ts : TimeSeries} (hts : Usable vars ts) (marked : Nat → Bool) {vs : List Nat}
    (hvs : ∀ v ∈ vs, v ∈ vars) {linked : Bool} (hl : linked = decide (s.out ≠ [])) {k : Nat} (hk : k = w.tried + stepBegins linked b (valueCount marked ts.observed ts.data) ts.length) :
    ((∀ t, t < ts.length → StepServed fails linked b w.tried (valueCount marked ts.observed ts.data) t ∧ LateServed fails linked b ts.length k (valueCount marked ts.observed ts.data) t) →
      ∃ results m', twoPhases s marked (thinned fails marked linked b w.tried ts) (lateSeries fails marked linked b k ts) vs m = ok (results, m') ∧
        forwardBackwardIn fails s marked ts vs m w =
          ok ((results, m'), ⟨k + lastRequests linked b ts.length (valueCount marked ts.observed ts.data) ts.length, w.held⟩)) ∧
    (¬ (∀ t, t < ts.length → StepServed fails linked b w.tried (valueCount marked ts.observed ts.data) t ∧ LateServed fails linked b ts.length k (valueCount marked ts.observed ts.data) t) →
      forwardBackwardIn fails s marked ts vs m w = ub) := by
  have hP : Closed (fun _ : K => True) := JTree.closed_all
  obtain ⟨a, a1, a2⟩ := newMessage_any hP h hs hpos
  have hm1 : newMessages s m ts.length = ok (List.replicate (ts.length + 1) a) := by unfold newMessages; rw [a1]; rfl
  have hst : Stored card vars s b ts.length m (List.replicate (ts.length + 1) a) :=
    ⟨h, hset, hs, ⟨by simp, by intro c hc; rw [(List.mem_replicate.mp hc).2]; exact a2⟩, hb⟩
  obtain ⟨m1, m2, b1, c1, _, hst2, e3, e4⟩ := renew fails hst false
  obtain ⟨l1, l2⟩ := forwardPhaseIn_any fails w (st := { model := m2, messages := List.replicate (ts.length + 1) a, ll := 0 }) hst2 hts marked hl ts.length (le_refl _)
  unfold forwardBackwardIn twoPhases
  have hlen1 : (thinned fails marked linked b w.tried ts).length = ts.length := rfl
  have hlen2 : (lateSeries fails marked linked b k ts).length = ts.length := rfl
  simp only [hlen1, hlen2, hm1, ok_bind, e3, e4, b1, c1]
  by_cases hf : ∀ t, t < ts.length → StepServed fails linked b w.tried (valueCount marked ts.observed ts.data) t
  · obtain ⟨st, k1, k2, k3⟩ := l1 hf
    rw [← hk] at k3
    rw [k1, k3]
    simp only [ok_bind]
    obtain ⟨d1, d2⟩ := backwardPhaseIn_any fails k w.held hts marked hvs hl ts.length (le_refl _) st.model st.messages
      (List.replicate ts.length (vs.map (fun v => List.replicate (m2.var v).card (0 : K)))) k2 (by simp)
    rw [Nat.sub_self] at d1 d2
    have hz : (⟨k + lastRequests linked b ts.length (valueCount marked ts.observed ts.data) 0, w.held⟩ : Loans) = ⟨k, w.held⟩ := rfl
    rw [hz] at d1 d2
    refine ⟨fun hall => ?_, fun hno => ?_⟩
    · obtain ⟨⟨m', l', res'⟩, r1, r2⟩ := d1 fun t ht => (hall t ht).2
      refine ⟨res', m', ?_, ?_⟩
      · rw [r1]; rfl
      · rw [r2]; rfl
    · rw [d2 fun hall => hno fun t ht => ⟨hf t ht, hall t ht⟩]
      rfl
  · refine ⟨fun hall => absurd (fun t ht => (hall t ht).1) hf, fun _ => ?_⟩
    rw [l2 hf]
    rfl

end Model

end Nip
