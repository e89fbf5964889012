import Verif.FilterMemory
import Verif.Spec.FilterMemory
import Verif.HistoryMemoryLemmas
import Verif.AnyDynamic

/-!
# Lemmas about forward inference when memory runs out
-/

namespace Nip

open Res Spec

set_option linter.unusedSectionVars false

variable {K : Type} [Field K] [LinearOrder K] [IsStrictOrderedRing K] {card : Nat → Nat} {vars : List Nat}

theorem update_null_alone {n p : Potential K} (hp : 0 < p.size) (hn : n.dim ≠ 0) : Potential.update (some n) none p [] = ub := by
  unfold Potential.update
  simp only [Bool.false_eq_true, if_false, if_neg hn]
  rw [loop_always_ub _ hp, ub_bind]
  intro i t
  cases p.indicesOf i with
  | ub => rfl
  | ok idx => rw [ok_bind, choose_short (by simp only [List.length_nil]; omega), ub_bind]

/-- the two outcomes of a step that makes `n` requests and must not be refused any -/
def Demands {α : Type} (fails : Nat → Bool) (w : Loans) (n : Nat) (run : Res (α × Loans)) (a : α) : Prop :=
  (Granted fails w.tried (w.tried + n) → run = ok (a, ⟨w.tried + n, w.held⟩)) ∧ (Refused fails w.tried (w.tried + n) → run = ub)

theorem Demands.zero {α : Type} {fails : Nat → Bool} {w : Loans} {run : Res (α × Loans)} {a : α} (h : run = ok (a, w)) : Demands fails w 0 run a :=
  ⟨fun _ => h, fun ⟨i, i1, i2, _⟩ => by omega⟩

theorem Demands.one {α : Type} {fails : Nat → Bool} {w : Loans} {run : Res (α × Loans)} {a : α} (h1 : fails w.tried = false → run = ok (a, ⟨w.tried + 1, w.held⟩))
    (h2 : fails w.tried = true → run = ub) : Demands fails w 1 run a :=
  ⟨fun h => h1 (h _ (le_refl _) (Nat.lt_add_one _)), fun ⟨i, i1, i2, i3⟩ => h2 (by rw [show w.tried = i by omega]; exact i3)⟩

namespace Model

abbrev Fits' (card : Nat → Nat) (vars : List Nat) (m : Model K) : Prop := Fit (fun _ : K => True) card vars m

theorem finishPassIn_any (fails : Nat → Bool) (w : Loans) {m : Model K} (h : Fits' card vars m) {s : Interface} (hs : Link card vars m s) {num : Potential K}
    (hnum : TableOn card s.out num) {m' : Model K} (hm : finishPass s true m num none = ok m') :
    Demands fails w (if s.out = [] then 0 else 1) (finishPassIn fails s true m num none w) m' := by
  unfold finishPass at hm
  unfold finishPassIn
  by_cases hne : s.out = []
  · have hl : s.out.length = 0 := by rw [hne]; rfl
    rw [if_pos hl] at hm
    simp only [ok.injEq] at hm
    subst hm
    rw [if_pos hne, if_pos hl]
    exact Demands.zero rfl
  · have hl : ¬ s.out.length = 0 := by simpa using hne
    rw [if_neg hl] at hm
    rw [if_neg hne, if_neg hl]
    obtain ⟨c, c1, c2, c3⟩ := hs.cliqueIn hne
    obtain ⟨cl, hcl⟩ : ∃ cl, m.tree.cliques[c]? = some cl := ⟨_, List.getElem?_eq_getElem c2⟩
    rw [JTree.varsOf_eq hcl] at c3
    obtain ⟨n1, n2, n3⟩ := h.safe.typed.clq c cl hcl
    have hnt := hs.table hnum true
    have hpl : s.prev.length = s.out.length := by have := congrArg List.length hs.cards; simpa using this.symm
    have hlen : s.prev.length ≤ cl.vars.length := (hs.prev.1.subperm c3).length_le
    have hpne : s.prev ≠ [] := by intro e; rw [e] at hpl; exact hl hpl.symm
    have hdim : num.dim ≠ 0 := by
      unfold Potential.dim
      rw [hnum.card_eq, List.length_map]
      exact hl
    simp only [if_true, c1, rd_eq_ok.mpr hcl, ok_bind] at hm ⊢
    obtain ⟨⟨e, o⟩, hmap, hm⟩ := bind_ok hm
    rcases mapperIn_cases fails w hlen hmap with ⟨k1, _⟩ | ⟨_, k2, ⟨l, k3⟩, k4⟩ | ⟨_, k2, k3⟩
    · exact absurd k1 hpne
    · refine Demands.one (fun _ => ?_) (fun hf => by rw [k2] at hf; cases hf)
      subst k3
      simp only at hm
      obtain ⟨⟨e', p⟩, hu, hm⟩ := bind_ok hm
      simp only at hm
      obtain ⟨cs, hw, hm⟩ := bind_ok hm
      simp only [ok.injEq] at hm
      subst hm
      rw [k4]
      simp only [ok_bind, hu, hw]
      rfl
    · refine Demands.one (fun hf => by rw [k2] at hf; cases hf) (fun _ => ?_)
      rw [k3]
      simp only [ok_bind, Option.getD_none]
      rw [update_null_alone (table_pos n2) hdim]
      rfl

theorem startPassIn_any (fails : Nat → Bool) (w : Loans) {m : Model K} (h : Fits' card vars m) {s : Interface} (hs : Link card vars m s) {a : Potential K}
    (ha : TableOn card s.out a) {a' : Potential K} (hm : startPass s true m a = ok a') :
    Demands fails w (if s.out = [] then 0 else 1) (startPassIn fails s true m a w) a' := by
  unfold startPass at hm
  unfold startPassIn
  by_cases hne : s.out = []
  · have hl : s.out.length = 0 := by rw [hne]; rfl
    rw [if_pos hl] at hm
    simp only [ok.injEq] at hm
    subst hm
    rw [if_pos hne, if_pos hl]
    exact Demands.zero rfl
  · have hl : ¬ s.out.length = 0 := by simpa using hne
    rw [if_neg hl] at hm
    rw [if_neg hne, if_neg hl]
    obtain ⟨c, c1, c2, c3⟩ := hs.cliqueOut hne
    obtain ⟨cl, hcl⟩ : ∃ cl, m.tree.cliques[c]? = some cl := ⟨_, List.getElem?_eq_getElem c2⟩
    rw [JTree.varsOf_eq hcl] at c3
    obtain ⟨n1, n2, n3⟩ := h.safe.typed.clq c cl hcl
    have hlen : s.out.length ≤ cl.vars.length := (hs.out.1.subperm c3).length_le
    have hdim : a.dim = s.out.length := by unfold Potential.dim; rw [ha.card_eq, List.length_map]
    have hpd : cl.p.dim = cl.vars.length := by unfold Potential.dim; rw [n2.card_eq, List.length_map]
    simp only [if_true, c1, rd_eq_ok.mpr hcl, ok_bind] at hm ⊢
    obtain ⟨⟨e, o⟩, hmap, hm⟩ := bind_ok hm
    rcases mapperIn_cases fails w hlen hmap with ⟨k1, _⟩ | ⟨_, k2, ⟨l, k3⟩, k4⟩ | ⟨_, k2, k3⟩
    · exact absurd k1 hne
    · refine Demands.one (fun _ => ?_) (fun hf => by rw [k2] at hf; cases hf)
      subst k3
      simp only at hm
      obtain ⟨⟨e', p⟩, hu, hm⟩ := bind_ok hm
      simp only at hm
      rw [k4]
      simp only [ok_bind, hu, hm]
      rfl
    · refine Demands.one (fun hf => by rw [k2] at hf; cases hf) (fun _ => ?_)
      rw [k3]
      simp only [ok_bind, Option.getD_none]
      rw [general_null (table_pos n2) (by omega) (by omega)]
      rfl

theorem observeIn (fails : Nat → Bool) (w : Loans) {S : List Nat} {m m' : Model K} (hs : Settled S m) {v : Nat} (hv : v ∈ S) {i : Int} (hi : 0 ≤ i)
    (hm : m.enterIndexObservation v i = ok (0, m')) :
    Settled S m' ∧ (fails w.tried = false → m.enterIndexObservationIn fails w v i = ok ((0, m'), ⟨w.tried + 1, w.held⟩)) ∧
      (fails w.tried = true → m.enterIndexObservationIn fails w v i = ok ((ENOMEM, m), ⟨w.tried + 1, w.held⟩)) := by
  unfold enterIndexObservation at hm
  unfold enterIndexObservationIn
  rw [if_neg (by omega)] at hm ⊢
  obtain ⟨e, h2, h1⟩ := bind_ok hm
  obtain ⟨g1, g2⟩ := enterEvidenceIn_step fails hs hv e
  refine ⟨g2 _ h1, fun hc => ?_, fun hc => ?_⟩
  · unfold Loans.calloc
    simp only [hc, Bool.false_eq_true, if_false]
    rw [h2, ok_bind, g1, h1]
    rfl
  · unfold Loans.calloc
    simp only [hc, if_true]

theorem posteriorsIn_any (fails : Nat → Bool) (w : Loans) {S : List Nat} {m m' : Model K} (hs : Settled S m) {vs : List Nat} (hvs : ∀ v ∈ vs, v ∈ S) {row : List (List K)}
    (hm : posteriors vs m = ok (row, m')) : m' = m ∧ posteriorsIn fails vs m w = ok ((row, m), w) := by
  have one : ∀ v ∈ S, ∀ r m1, posterior m v = ok (r, m1) → m1 = m ∧ posteriorIn fails m v w = ok ((r, m), w) := by
    intro v hv r m1 h
    obtain ⟨c, f1, f2⟩ := findFamilyIn_known fails hs hv
    unfold posterior at h
    unfold posteriorIn
    rw [f1, ok_bind] at h
    rw [f2, ok_bind]
    simp only at h ⊢
    obtain ⟨⟨e, d⟩, h1, h⟩ := bind_ok h
    simp only at h
    obtain ⟨r', h2, h⟩ := bind_ok h
    simp only [ok.injEq, Prod.mk.injEq] at h
    obtain ⟨rfl, rfl⟩ := h
    exact ⟨rfl, by simp only [h1, ok_bind, h2]⟩
  have key : ∀ (vs : List Nat) (acc : List (List K)), (∀ v ∈ vs, v ∈ S) → ∀ row m', vs.foldlM (fun (st : List (List K) × Model K) v => do
        let (r, m) ← posterior st.2 v
        ok (st.1 ++ [r], m)) (acc, m) = ok (row, m') →
      m' = m ∧ vs.foldlM (fun (st : (List (List K) × Model K) × Loans) v => do
        let ((r, m), w) ← posteriorIn fails st.1.2 v st.2
        ok ((st.1.1 ++ [r], m), w)) ((acc, m), w) = ok ((row, m), w) := by
    intro vs
    induction vs with
    | nil =>
      intro acc _ row m' h
      have h' : (ok (acc, m) : Res _) = ok (row, m') := h
      simp only [ok.injEq, Prod.mk.injEq] at h'
      obtain ⟨rfl, rfl⟩ := h'
      exact ⟨rfl, rfl⟩
    | cons v vs ih =>
      intro acc hv row m' h
      rw [List.foldlM_cons] at h ⊢
      obtain ⟨st, h1, h3⟩ := bind_ok h
      obtain ⟨⟨r, m1⟩, h2, h4⟩ := bind_ok h1
      simp only [ok.injEq] at h4
      subst h4
      obtain ⟨e0, g⟩ := one v (hv v (List.mem_cons_self ..)) r m1 h2
      rw [e0] at h3
      obtain ⟨e1, e2⟩ := ih (acc ++ [r]) (fun u hu => hv u (List.mem_cons_of_mem _ hu)) row m' h3
      refine ⟨e1, ?_⟩
      simp only [g, ok_bind]
      exact e2
  exact key vs [] hvs row m' hm

end Model

theorem presentCount_succ (marked : Nat → Bool) {observed : List Nat} {row : List Int} {i : Nat} (hi : i < observed.length) (hir : i < row.length) (hl : row.length = observed.length) :
    (presentValues marked (observed.take (i + 1)) (row.take (i + 1))).length =
      (presentValues marked (observed.take i) (row.take i)).length + (if marked observed[i] && decide (0 ≤ row[i]) then 1 else 0) := by
  unfold presentValues
  rw [List.take_succ_eq_append_getElem hi, List.take_succ_eq_append_getElem hir, List.zip_append (by simp; omega), List.filter_append, List.length_append]
  congr 1
  simp only [List.zip_cons_cons, List.zip_nil_right, List.filter_cons, List.filter_nil]
  split <;> simp

theorem thinRow_length (fails : Nat → Bool) (marked : Nat → Bool) (k : Nat) (observed : List Nat) (row : List Int) : (thinRow fails marked k observed row).length = row.length := by
  unfold thinRow; simp

theorem thinRow_get (fails : Nat → Bool) (marked : Nat → Bool) (k : Nat) {observed : List Nat} {row : List Int} {i : Nat} (hi : i < observed.length) (hir : i < row.length)
    (h : i < (thinRow fails marked k observed row).length) :
    (thinRow fails marked k observed row)[i] =
      if (marked observed[i] && decide (0 ≤ row[i])) && fails (k + (presentValues marked (observed.take i) (row.take i)).length) then -1 else row[i] := by
  simp only [thinRow, List.getElem_mapIdx]
  have e : observed.getD i 0 = observed[i] := by simp [hi]
  rw [e]

namespace Model

/-- Entering the values of a step with failing allocations is entering the values of the thinned row. -/
theorem insertStepIn_any (fails : Nat → Bool) (w : Loans) {m : Model K} (h : Fits' card vars m) (hset : Settled vars m) {ts ts' : TimeSeries} (hts : Usable vars ts)
    (marked : Nat → Bool) {t : Nat} (ht : t < ts.length) {row : List Int} (hrow : ts.data[t]? = some row) (hob : ts'.observed = ts.observed) (hlen : ts'.length = ts.length)
    (hnv : ts'.numVars = ts.numVars) (hnh : ts'.numHidden = ts.numHidden) (hthin : ts'.data[t]? = some (thinRow fails marked w.tried ts.observed row)) :
    ∃ m', insertStep marked ts' (t : Int) m = ok (0, m') ∧
      insertStepIn fails marked ts (t : Int) m w = ok ((0, m'), ⟨w.tried + (presentValues marked ts.observed row).length, w.held⟩) ∧ Settled vars m' ∧ Same m m' ∧ Fits' card vars m' := by
  obtain ⟨htd, hrd⟩ := List.getElem?_eq_some_iff.mp hrow
  obtain ⟨htd', hrd'⟩ := List.getElem?_eq_some_iff.mp hthin
  have hrl : row.length = ts.observed.length := hts.wf.row row (by rw [← hrd]; exact List.getElem_mem _)
  have hnum : ((ts.numVars : Int) - ts.numHidden).toNat = ts.observed.length := by rw [hts.wf.hidden]; simp
  unfold insertStep insertStepIn
  rw [hlen, if_neg (by omega), if_neg (by omega), hnv, hnh, hnum, hob]
  obtain ⟨body, hbody⟩ : ∃ body, body = fun i (m : Model K) => (do
      let v ← rd ts.observed i
      if marked v then do
        let row ← rd ts'.data (t : Int).toNat
        let d ← rd row i
        if 0 ≤ d then do
          let r ← m.enterIndexObservation v d
          ok r.2
        else ok m
      else ok m : Res (Model K)) := ⟨_, rfl⟩
  obtain ⟨st, e1, e2, e3, e4, e5, e6⟩ := loop_inv (n := ts.observed.length) (s := (m, w)) (f := fun i (st : Model K × Loans) => do
      let v ← rd ts.observed i
      if marked v then do
        let row ← rd ts.data (t : Int).toNat
        let d ← rd row i
        if 0 ≤ d then do
          let (r, w) ← st.1.enterIndexObservationIn fails st.2 v d
          ok (r.2, w)
        else ok st
      else ok st)
    (fun i st => loop i body m = ok st.1 ∧ st.2 = ⟨w.tried + (presentValues marked (ts.observed.take i) (row.take i)).length, w.held⟩ ∧ Settled vars st.1 ∧ Same m st.1 ∧
      Fits' card vars st.1)
    ⟨rfl, rfl, hset, Same.refl m, h⟩
    (by
      rintro i hi ⟨m1, w1⟩ ⟨k1, k2, k3, k4, k5⟩
      simp only at k1 k2 k3 k4 k5
      have hir : i < row.length := by omega
      have hob : ts.observed[i] ∈ vars := hts.sub _ (List.getElem_mem hi)
      have hil : i < (thinRow fails marked w.tried ts.observed row).length := by rw [thinRow_length]; exact hir
      have hget := thinRow_get fails marked w.tried hi hir hil
      rw [presentCount_succ marked hi hir (by omega), loop_succ, k1]
      have ht1 : w1.tried = w.tried + (presentValues marked (ts.observed.take i) (row.take i)).length := by rw [k2]
      have ht2 : w1.held = w.held := by rw [k2]
      rw [← ht1] at hget
      rw [← Nat.add_assoc, ← ht1, ← ht2]
      show ∃ s' : Model K × Loans, _ ∧ body i m1 = ok s'.1 ∧ _
      rw [hbody]
      simp only [rd_lt hi, ok_bind]
      by_cases hm : marked ts.observed[i]
      · simp only [hm, if_true, Int.toNat_natCast, rd_lt htd, hrd, rd_lt htd', hrd', rd_lt hir, rd_lt hil, ok_bind, Bool.true_and] at hget ⊢
        by_cases hd : 0 ≤ row[i]
        · simp only [hd, decide_true, Bool.true_and, if_true] at hget ⊢
          obtain ⟨m2, b1, b2, b3⟩ := enterIndexObservation_any JTree.closed_all k5 hob row[i]
          obtain ⟨o1, o2, o3⟩ := observeIn fails w1 k3 hob hd b1
          cases hg : fails w1.tried with
          | false =>
            rw [hg] at hget
            simp only [Bool.false_eq_true, if_false] at hget
            refine ⟨(m2, ⟨w1.tried + 1, w1.held⟩), ?_, ?_, rfl, o1, k4.trans b2, b3⟩
            · rw [o2 hg]; rfl
            · rw [hget, if_pos hd, b1]; rfl
          | true =>
            rw [hg] at hget
            simp only [if_true] at hget
            refine ⟨(m1, ⟨w1.tried + 1, w1.held⟩), ?_, ?_, rfl, k3, k4, k5⟩
            · rw [o3 hg]; rfl
            · rw [hget, if_neg (by omega)]
        · simp only [hd, decide_false, Bool.false_and, Bool.false_eq_true, if_false, Nat.add_zero] at hget ⊢
          refine ⟨(m1, w1), rfl, ?_, rfl, k3, k4, k5⟩
          rw [hget, if_neg hd]
      · simp only [hm, Bool.false_eq_true, if_false, Bool.false_and, Nat.add_zero]
        exact ⟨(m1, w1), rfl, rfl, rfl, k3, k4, k5⟩)
  obtain ⟨m', w'⟩ := st
  have ht2 : row.take ts.observed.length = row := by rw [← hrl, List.take_length]
  rw [List.take_length, ht2] at e3
  simp only at e2 e3 e4 e5 e6
  subst e3
  refine ⟨m', ?_, ?_, e4, e5, e6⟩
  · rw [← hbody, e2]; rfl
  · rw [e1]; rfl

theorem granted_or (fails : Nat → Bool) (a b : Nat) : Granted fails a b ∨ Refused fails a b := by
  by_cases h : Refused fails a b
  · exact Or.inr h
  · refine Or.inl fun i h1 h2 => ?_
    by_contra hc
    exact h ⟨i, h1, h2, by simpa using hc⟩

theorem not_both {fails : Nat → Bool} {a b : Nat} (h : Refused fails a b) : ¬ Granted fails a b := by
  intro hg
  obtain ⟨i, h1, h2, h3⟩ := h
  rw [hg i h1 h2] at h3
  cases h3

/-- what is kept from round to round -/
structure Ready (card : Nat → Nat) (vars : List Nat) (s : Interface) (b : Nat) (st : Filter K) : Prop where
  fit : Fits' card vars st.model
  settled : Settled vars st.model
  link : Link card vars st.model s
  letter : Letter (fun _ : K => True) card s st.alpha
  seps : (st.model.tree.sepsets.filter (fun s => s.vars ≠ [])).length = b

theorem normal_true : Normal (fun _ : K => True) (fun _ => True) := fun _ _ _ _ _ _ => trivial

theorem forwardStepIn_any (fails : Nat → Bool) (w : Loans) {s : Interface} {b : Nat} {st : Filter K} (h : Ready card vars s b st) {ts ts' : TimeSeries} (hts : Usable vars ts)
    (marked : Nat → Bool) {vs : List Nat} (hvs : ∀ v ∈ vs, v ∈ vars) {t : Nat} (ht : t < ts.length) {row : List Int} (hrow : ts.data[t]? = some row) (hob : ts'.observed = ts.observed)
    (hlen : ts'.length = ts.length) (hnv : ts'.numVars = ts.numVars) (hnh : ts'.numHidden = ts.numHidden) {linked : Bool} (hl : linked = decide (s.out ≠ []))
    {arr n later : Nat} (harr : arr = arrivalRequests linked t) (hn : n = (presentValues marked ts.observed row).length) (hlater : later = laterRequests linked b)
    (hthin : ts'.data[t]? = some (thinRow fails marked (w.tried + arr) ts.observed row)) :
    ∃ st', forwardStep none s marked ts' vs t st = ok st' ∧ Ready card vars s b st' ∧
      (Granted fails w.tried (w.tried + arr) ∧ Granted fails (w.tried + arr + n) (w.tried + arr + n + later) →
        forwardStepIn fails s marked ts vs t (st, w) = ok (st', ⟨w.tried + (arr + n + later), w.held⟩)) ∧
      (¬ (Granted fails w.tried (w.tried + arr) ∧ Granted fails (w.tried + arr + n) (w.tried + arr + n + later)) → forwardStepIn fails s marked ts vs t (st, w) = ub) := by
  have hP : Closed (fun _ : K => True) := JTree.closed_all
  have hreq : (if s.out = [] then 0 else 1) = (if linked then 1 else 0) := by
    rw [hl]
    by_cases hne : s.out = [] <;> simp [hne]
  obtain ⟨m1, a1, a2, a3⟩ := arriveForward_any hP h.fit h.link t h.letter
  have hs1 : Settled vars m1 := by
    unfold arriveForward at a1
    split at a1
    · unfold finishPass at a1
      split at a1
      · simp only [ok.injEq] at a1
        subst a1
        exact h.settled
      · split at a1
        · cases a1
        · obtain ⟨cl, _, a1⟩ := bind_ok a1
          obtain ⟨⟨_, mp⟩, _, a1⟩ := bind_ok a1
          obtain ⟨⟨_, p⟩, _, a1⟩ := bind_ok a1
          obtain ⟨cs, _, a1⟩ := bind_ok a1
          simp only [ok.injEq] at a1
          subst a1
          exact h.settled.tree _
    · simp only [ok.injEq] at a1
      subst a1
      exact h.settled
  have hd1 : Demands fails w arr (if 0 < t then finishPassIn fails s true st.model st.alpha none w else ok (st.model, w)) m1 := by
    unfold arriveForward at a1
    rw [harr]
    unfold arrivalRequests
    by_cases h0 : 0 < t
    · rw [if_pos h0] at a1 ⊢
      simp only [h0, decide_true, Bool.and_true]
      rw [← hreq]
      exact finishPassIn_any fails w h.fit h.link h.letter.1 a1
    · rw [if_neg h0] at a1 ⊢
      simp only [ok.injEq] at a1
      subst a1
      simp only [h0, decide_false, Bool.and_false, Bool.false_eq_true, if_false]
      exact Demands.zero rfl
  obtain ⟨m2, b1, b2, b3, b4, b5⟩ := insertStepIn_any fails ⟨w.tried + arr, w.held⟩ a3 hs1 hts marked ht hrow hob hlen hnv hnh hthin
  rw [← hn] at b2
  obtain ⟨m3, c1, c2, c3⟩ := makeConsistent_any hP b5
  have hs3 := makeConsistent_settled b3 c1
  obtain ⟨row', m3', d1, d2, d3, _⟩ := posteriors_any hP normal_true c3 hvs
  have hpost := fun u => posteriorsIn_any fails u hs3 hvs d1
  obtain ⟨rfl, _⟩ := hpost w
  have hlink3 := h.link.same (a2.trans (b4.trans c2))
  obtain ⟨a', e1, e2⟩ := startPass_any hP d3 hlink3 true h.letter
  obtain ⟨m4, g1, g2, g3⟩ := reset_any hP d3
  obtain ⟨r1, r2⟩ := resetIn_step fails hs3
  have hs4 := r2 m4 g1
  obtain ⟨m5, i1, i2, i3⟩ := usePriors_any hP g3 true
  obtain ⟨q1, q2⟩ := usePriorsIn_step fails hs4 true
  have hs5 := q2 m5 i1
  have hsame : Same st.model m5 := a2.trans (b4.trans (c2.trans (g2.trans i2)))
  have hb2 : (m2.tree.sepsets.filter (fun s => s.vars ≠ [])).length = b := (seps_same (a2.trans b4)).trans h.seps
  obtain ⟨L, hL⟩ := b5.good
  have hcons := fun u => makeConsistentIn_typed fails u hL b5.safe.typed c1
  simp only [hb2] at hcons
  have hdst := fun u => startPassIn_any fails u d3 hlink3 h.letter.1 e1
  rw [hreq] at hdst
  refine ⟨{ model := m5, alpha := a', results := st.results ++ [row'], ll := st.ll }, ?_, ⟨i3, hs5, h.link.same hsame, e2, (seps_same hsame).trans h.seps⟩, ?_⟩
  · unfold forwardStep absorb
    simp only [a1, ok_bind, b1, c1, d1, e1, g1, i1]
  have hla : later = 4 * b + (if linked then 1 else 0) := hlater
  generalize hx : (if linked then 1 else 0) = x at hla hdst
  -- the run after the arrival of the message
  have hrun : Granted fails w.tried (w.tried + arr) →
      forwardStepIn fails s marked ts vs t (st, w) = (m2.makeConsistentIn fails ⟨w.tried + arr + n, w.held⟩ >>= fun r => do
        let ((row, m), w) ← posteriorsIn fails vs r.1 r.2
        let (alpha, w) ← startPassIn fails s true m st.alpha w
        let (m, w) ← m.resetIn fails w
        let (m, w) ← m.usePriorsIn fails w true
        ok ({ model := m, alpha := alpha, results := st.results ++ [row], ll := st.ll }, w)) := by
    intro hg
    unfold forwardStepIn
    rw [hd1.1 hg]
    simp only [ok_bind]
    rw [b2]
    rfl
  have hrun2 : Granted fails w.tried (w.tried + arr) → Granted fails (w.tried + arr + n) (w.tried + arr + n + 4 * b) →
      forwardStepIn fails s marked ts vs t (st, w) = (startPassIn fails s true m3' st.alpha ⟨w.tried + arr + n + 4 * b, w.held⟩ >>= fun r => do
        let (m, w) ← m3'.resetIn fails r.2
        let (m, w) ← m.usePriorsIn fails w true
        ok ({ model := m, alpha := r.1, results := st.results ++ [row'], ll := st.ll }, w)) := by
    intro hg hg2
    rw [hrun hg]
    rcases hcons ⟨w.tried + arr + n, w.held⟩ with ⟨k1, _⟩ | ⟨_, k2⟩
    · rw [k1]
      simp only [ok_bind]
      rw [(hpost _).2]
      rfl
    · exact absurd hg2 (not_both k2)
  constructor
  · rintro ⟨hg, hg2⟩
    have hgc : Granted fails (w.tried + arr + n) (w.tried + arr + n + 4 * b) := fun i h1 h2 => hg2 i h1 (by omega)
    have hgs : Granted fails (w.tried + arr + n + 4 * b) (w.tried + arr + n + 4 * b + x) := fun i h1 h2 => hg2 i (by omega) (by omega)
    rw [hrun2 hg hgc, (hdst _).1 hgs]
    simp only [ok_bind]
    have e3 := r1 ⟨w.tried + arr + n + 4 * b + x, w.held⟩
    rw [g1, ok_bind] at e3
    simp only at e3
    rw [e3]
    simp only [ok_bind]
    have e4 := q1 ⟨w.tried + arr + n + 4 * b + x, w.held⟩
    rw [i1, ok_bind] at e4
    simp only at e4
    rw [e4]
    simp only [ok_bind, ok.injEq, Prod.mk.injEq, Loans.mk.injEq, true_and, and_true]
    omega
  · intro hno
    rcases granted_or fails w.tried (w.tried + arr) with hg | hr
    · rcases granted_or fails (w.tried + arr + n) (w.tried + arr + n + 4 * b) with hg2 | hr2
      · rcases granted_or fails (w.tried + arr + n + 4 * b) (w.tried + arr + n + 4 * b + x) with hg3 | hr3
        · refine absurd ⟨hg, fun i h1 h2 => ?_⟩ hno
          by_cases hi : i < w.tried + arr + n + 4 * b
          · exact hg2 i h1 hi
          · exact hg3 i (by omega) (by omega)
        · rw [hrun2 hg hg2, (hdst _).2 hr3]
          rfl
      · rw [hrun hg]
        rcases hcons ⟨w.tried + arr + n, w.held⟩ with ⟨_, k1⟩ | ⟨k2, _⟩
        · exact absurd k1 (not_both hr2)
        · rw [k2]
          rfl
    · unfold forwardStepIn
      rw [hd1.2 hr]
      rfl

/-- the series without the values that are lost -/
def thinned (fails : Nat → Bool) (marked : Nat → Bool) (linked : Bool) (b k : Nat) (ts : TimeSeries) : TimeSeries :=
  { ts with data := thinRows fails marked linked b k ts.observed ts.data }

theorem thinned_wf {fails : Nat → Bool} {marked : Nat → Bool} {linked : Bool} {b k : Nat} {ts : TimeSeries} (h : ts.WellFormed) : (thinned fails marked linked b k ts).WellFormed where
  observed := h.observed
  hidden := h.hidden
  rows := by
    have : (thinRows fails marked linked b k ts.observed ts.data).length = ts.data.length := by unfold thinRows; simp
    exact this.trans h.rows
  row := by
    intro row hr
    unfold thinned thinRows at hr
    simp only [List.mem_mapIdx] at hr
    obtain ⟨i, hi, rfl⟩ := hr
    rw [thinRow_length]
    exact h.row _ (List.getElem_mem _)

theorem forwardLoopIn_any (fails : Nat → Bool) (w : Loans) {s : Interface} {b : Nat} {st : Filter K} (h : Ready card vars s b st) {ts : TimeSeries} (hts : Usable vars ts)
    (marked : Nat → Bool) {vs : List Nat} (hvs : ∀ v ∈ vs, v ∈ vars) {linked : Bool} (hl : linked = decide (s.out ≠ [])) (n : Nat) (hn : n ≤ ts.length) :
    ((∀ t, t < n → StepServed fails linked b w.tried (valueCount marked ts.observed ts.data) t) →
      ∃ st', loop n (forwardStep none s marked (thinned fails marked linked b w.tried ts) vs) st = ok st' ∧ Ready card vars s b st' ∧
        loop n (forwardStepIn fails s marked ts vs) (st, w) = ok (st', ⟨w.tried + stepBegins linked b (valueCount marked ts.observed ts.data) n, w.held⟩)) ∧
    (¬ (∀ t, t < n → StepServed fails linked b w.tried (valueCount marked ts.observed ts.data) t) → loop n (forwardStepIn fails s marked ts vs) (st, w) = ub) := by
  induction n with
  | zero => exact ⟨fun _ => ⟨st, rfl, h, rfl⟩, fun hno => absurd (fun t ht => absurd ht (Nat.not_lt_zero t)) hno⟩
  | succ n ih =>
    obtain ⟨ih1, ih2⟩ := ih (by omega)
    rw [loop_succ, loop_succ]
    by_cases hall : ∀ t, t < n → StepServed fails linked b w.tried (valueCount marked ts.observed ts.data) t
    · obtain ⟨st1, k1, k2, k3⟩ := ih1 hall
      have hnd : n < ts.data.length := by rw [hts.wf.rows]; omega
      have hcount : valueCount marked ts.observed ts.data n = (presentValues marked ts.observed ts.data[n]).length := by
        unfold valueCount
        simp [hnd]
      have hthin : (thinned fails marked linked b w.tried ts).data[n]? =
          some (thinRow fails marked (w.tried + stepBegins linked b (valueCount marked ts.observed ts.data) n + arrivalRequests linked n) ts.observed ts.data[n]) := by
        unfold thinned thinRows
        simp [hnd]
      obtain ⟨st2, j1, j2, j3, j4⟩ := forwardStepIn_any fails ⟨w.tried + stepBegins linked b (valueCount marked ts.observed ts.data) n, w.held⟩ k2 hts marked hvs (t := n) (by omega)
        (List.getElem?_eq_getElem hnd) (ts' := thinned fails marked linked b w.tried ts) rfl rfl rfl rfl hl rfl hcount rfl hthin
      rw [k1, k3]
      refine ⟨fun hs => ⟨st2, j1, j2, ?_⟩, fun hno => ?_⟩
      · have := j3 (hs n (Nat.lt_add_one n))
        refine Eq.trans this ?_
        simp only [ok.injEq, Prod.mk.injEq, Loans.mk.injEq, true_and, and_true, stepBegins]
        omega
      · refine j4 (fun hs => hno fun t ht => ?_)
        rcases Nat.lt_succ_iff_lt_or_eq.mp ht with h1 | rfl
        · exact hall t h1
        · exact hs
    · rw [ih2 hall]
      exact ⟨fun hs => absurd (fun t ht => hs t (by omega)) hall, fun _ => rfl⟩

/-- Forward inference with failing allocations. -/
theorem forwardIn_any (fails : Nat → Bool) (w : Loans) {m : Model K} (h : Fits' card vars m) (hset : Settled vars m) {s : Interface} (hs : Link card vars m s)
    (hpos : ∀ v ∈ vars, 0 < card v) {b : Nat} (hb : (m.tree.sepsets.filter (fun s => s.vars ≠ [])).length = b) {ts : TimeSeries} (hts : Usable vars ts) (marked : Nat → Bool) {vs : List Nat}
    (hvs : ∀ v ∈ vs, v ∈ vars) {linked : Bool} (hl : linked = decide (s.out ≠ [])) :
    ((∀ t, t < ts.length → StepServed fails linked b w.tried (valueCount marked ts.observed ts.data) t) →
      ∃ results ll m', forwardInference none s marked (thinned fails marked linked b w.tried ts) vs m = ok (results, ll, m') ∧
        forwardInferenceIn fails s marked ts vs m w =
          ok ((results, m'), ⟨w.tried + stepBegins linked b (valueCount marked ts.observed ts.data) ts.length, w.held⟩)) ∧
    (¬ (∀ t, t < ts.length → StepServed fails linked b w.tried (valueCount marked ts.observed ts.data) t) → forwardInferenceIn fails s marked ts vs m w = ub) := by
  have hP : Closed (fun _ : K => True) := JTree.closed_all
  obtain ⟨a, a1, a2⟩ := newMessage_any hP h hs hpos
  obtain ⟨m1, b1, b2, b3⟩ := reset_any hP h
  obtain ⟨r1, r2⟩ := resetIn_step fails hset
  obtain ⟨m2, c1, c2, c3⟩ := usePriors_any hP b3 false
  obtain ⟨q1, q2⟩ := usePriorsIn_step fails (r2 m1 b1) false
  have hready : Ready card vars s b { model := m2, alpha := a, results := [], ll := 0 } :=
    ⟨c3, q2 m2 c1, hs.same (b2.trans c2), a2, (seps_same (b2.trans c2)).trans hb⟩
  obtain ⟨l1, l2⟩ := forwardLoopIn_any fails w hready hts marked hvs hl ts.length (le_refl _)
  have e3 := r1 w
  rw [b1, ok_bind] at e3
  simp only at e3
  have e4 := q1 w
  rw [c1, ok_bind] at e4
  simp only at e4
  unfold forwardInferenceIn forwardInference
  simp only [a1, ok_bind, e3, e4, b1, c1]
  refine ⟨fun hall => ?_, fun hno => ?_⟩
  · obtain ⟨st, k1, _, k3⟩ := l1 hall
    refine ⟨st.results, st.ll, st.model, ?_, ?_⟩
    · show (loop ts.length _ _ >>= _) = _
      rw [k1]
      rfl
    · rw [k3]
      rfl
  · rw [l2 hno]
    rfl

end Model

end Nip
