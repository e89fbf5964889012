import Verif.AnyBuild
import Verif.DynamicLemmas
import Verif.Generate
import Verif.History

/-! # Histories, inference over time and sampling with numbers without laws -/

namespace Nip

open Res Spec

set_option linter.unusedSectionVars false

variable {K : Type} [Zero K] [One K] [Add K] [_root_.Sub K] [Mul K] [Div K] [LinearOrder K] {P Q : K → Prop}

/-- operations with legal arguments and with numbers of the set -/
def Op.Proper (P : K → Prop) (card : Nat → Nat) (vars : List Nat) : Op K → Prop
  | .evidence v e => v ∈ vars ∧ e.length = card v ∧ Cells P e
  | .observe v _ => v ∈ vars
  | .query v => v ∈ vars
  | _ => True

/-- what normalising makes of numbers of the set -/
def Normal (P Q : K → Prop) : Prop := ∀ d : List K, Cells P d → ∀ r, Potential.normaliseArray d 0 d.length = ok r → Cells Q r

namespace Model

variable {card : Nat → Nat} {vars : List Nat}

theorem perform_any (hP : Closed P) {m : Model K} (h : Fit P card vars m) {op : Op K} (ho : Op.Proper P card vars op) :
    ∃ m', m.perform op = ok m' ∧ Same m m' ∧ Fit P card vars m' := by
  cases op with
  | evidence v e =>
    obtain ⟨m', h1, h2, h3⟩ := enterEvidence_any hP h ho.1 ho.2.1 ho.2.2
    exact ⟨m', by unfold perform; simp only [h1, ok_bind], h2, h3⟩
  | observe v i =>
    obtain ⟨m', h1, h2, h3⟩ := enterIndexObservation_any hP h ho i
    exact ⟨m', by unfold perform; simp only [h1, ok_bind], h2, h3⟩
  | reset => exact reset_any hP h
  | priors b => exact usePriors_any hP h b
  | propagate => exact makeConsistent_any hP h
  | mass =>
    obtain ⟨k, m', h1, h2, h3⟩ := probMass_any h
    exact ⟨m', by unfold perform; simp only [h1, ok_bind], h2, h3⟩
  | query v =>
    obtain ⟨d, r, m', h1, h2, h3, _⟩ := getProbability_any hP h (v := v) ho
    exact ⟨m', by unfold perform; simp only [h1, ok_bind], h2, h3⟩

theorem performAll_any (hP : Closed P) : ∀ (ops : List (Op K)) (m : Model K), Fit P card vars m → (∀ op ∈ ops, Op.Proper P card vars op) →
    ∃ m', m.performAll ops = ok m' ∧ Same m m' ∧ Fit P card vars m' := by
  intro ops
  induction ops with
  | nil => intro m h _; exact ⟨m, rfl, Same.refl m, h⟩
  | cons op ops ih =>
    intro m h ho
    obtain ⟨m1, a1, a2, a3⟩ := perform_any hP h (ho op (List.mem_cons_self ..))
    obtain ⟨m2, b1, b2, b3⟩ := ih m1 a3 (fun o h => ho o (List.mem_cons_of_mem _ h))
    refine ⟨m2, ?_, a2.trans b2, b3⟩
    show List.foldlM _ _ _ = _
    rw [List.foldlM_cons, a1]
    exact b1

theorem answer_any (hP : Closed P) (hQ : Normal P Q) {m : Model K} (h : Fit P card vars m) {v : Nat} (hv : v ∈ vars) :
    ∃ r m', m.getProbability v = ok (some r, m') ∧ Same m m' ∧ Fit P card vars m' ∧ r.length = card v ∧ Cells P r ∧ Cells Q r := by
  obtain ⟨d, r, m', h1, h2, h3, h4, h5, h6, h7, h8⟩ := getProbability_any hP h hv
  exact ⟨r, m', h1, h2, h3, h7, h8, hQ d h5 r (by rw [h4]; exact h6)⟩

/-! ### between time slices -/

/-- the interface and the cliques that hold it -/
structure Link (cd : Nat → Nat) (vs : List Nat) (m : Model K) (s : Interface) : Prop where
  prev : s.prev.Nodup ∧ ∀ v ∈ s.prev, v ∈ vs
  out : s.out.Nodup ∧ ∀ v ∈ s.out, v ∈ vs
  cards : s.out.map cd = s.prev.map cd
  cliqueIn : s.out ≠ [] → ∃ c, s.inClique = some c ∧ c < m.tree.cliques.length ∧ ∀ v ∈ s.prev, v ∈ m.tree.varsOf c
  cliqueOut : s.out ≠ [] → ∃ c, s.outClique = some c ∧ c < m.tree.cliques.length ∧ ∀ v ∈ s.out, v ∈ m.tree.varsOf c

theorem Link.same {m m' : Model K} {s : Interface} (h : Link card vars m s) (k : Same m m') : Link card vars m' s := by
  refine ⟨h.prev, h.out, h.cards, ?_, ?_⟩
  · intro hne; rw [JTree.skel_len k.skel]
    obtain ⟨c, h1, h2, h3⟩ := h.cliqueIn hne
    exact ⟨c, h1, h2, by rw [JTree.skel_vars k.skel]; exact h3⟩
  · intro hne; rw [JTree.skel_len k.skel]
    obtain ⟨c, h1, h2, h3⟩ := h.cliqueOut hne
    exact ⟨c, h1, h2, by rw [JTree.skel_vars k.skel]; exact h3⟩

/-- a message between time slices -/
def Letter (P : K → Prop) (card : Nat → Nat) (s : Interface) (a : Potential K) : Prop := TableOn card s.out a ∧ Cells P a.data

theorem Link.table {m : Model K} {s : Interface} (h : Link card vars m s) {p : Potential K} (hp : TableOn card s.out p) (fwd : Bool) :
    TableOn card (s.side fwd) p := by
  unfold Interface.side
  cases fwd
  · exact hp
  · exact ⟨hp.wf, hp.card_eq.trans h.cards⟩

theorem finishPass_any (hP : Closed P) {m : Model K} (h : Fit P card vars m) {s : Interface} (hs : Link card vars m s) (fwd : Bool) {num : Potential K}
    {den : Option (Potential K)} (hnum : Letter P card s num) (hden : ∀ d, den = some d → Letter P card s d) :
    ∃ m', finishPass s fwd m num den = ok m' ∧ Same m m' ∧ Fit P card vars m' := by
  unfold finishPass
  by_cases hne : s.out = []
  · exact ⟨m, by rw [if_pos (by rw [hne]; rfl)], Same.refl m, h⟩
  · rw [if_neg (by simpa using hne)]
    have hside : (s.side fwd).Nodup ∧ ∃ c, (if fwd then s.inClique else s.outClique) = some c ∧ c < m.tree.cliques.length ∧ ∀ v ∈ s.side fwd, v ∈ m.tree.varsOf c := by
      unfold Interface.side
      cases fwd
      · exact ⟨hs.out.1, hs.cliqueOut hne⟩
      · exact ⟨hs.prev.1, hs.cliqueIn hne⟩
    obtain ⟨hnd, c, c1, c2, c3⟩ := hside
    obtain ⟨cl, hcl⟩ : ∃ cl, m.tree.cliques[c]? = some cl := ⟨_, List.getElem?_eq_getElem c2⟩
    rw [JTree.varsOf_eq hcl] at c3
    obtain ⟨o, o1, o2⟩ := mapper_places hnd (set := cl.vars) c3
    obtain ⟨n1, n2, n3⟩ := h.safe.typed.clq c cl hcl
    have hnt := hs.table hnum.1 fwd
    have hlen : (s.side fwd).length ≤ cl.vars.length := (hnd.subperm c3).length_le
    obtain ⟨q, hq⟩ : ∃ q, q = Potential.ofFn cl.p.card (fun x => Potential.updCell (some num) den (places cl.vars (s.side fwd)) x (cl.p.at' x)) :=
      ⟨_, rfl⟩
    have hupd : Potential.update (some num) den cl.p (places cl.vars (s.side fwd)) = ok (0, q) := by
      rw [hq]
      refine Potential.update_ofFn n2.wf (Or.inl (by simp)) ?_ ?_ ?_
      · rintro _ ⟨rfl⟩; exact ⟨hnt.wf, by rw [n2.card_eq, hnt.card_eq]; exact places_into c3⟩
      · intro d hd
        have hdt := hs.table (hden d hd).1 fwd
        exact ⟨hdt.wf, by rw [n2.card_eq, hdt.card_eq]; exact places_into c3⟩
      · intro _ _; rw [n2.card_eq]; simpa [places] using hlen
    have hqon : TableOn card cl.vars q := by rw [hq, n2.card_eq]; exact ofFn_on n2.pos _
    have hqc : Cells P q.data := by
      rw [hq]
      exact cells_ofFn fun x => Potential.updCell_any hP (by rintro _ ⟨rfl⟩; exact hnum.2) (fun d hd => (hden d hd).2) _ _ ((h.safe.clq c cl hcl).1.at' hP.zero x)
    have hsk : ({ m.tree with cliques := m.tree.cliques.set c { cl with p := q } } : JTree K).skel = m.tree.skel :=
      JTree.set_skel (cl' := { cl with p := q }) hcl rfl rfl
    obtain ⟨s1, s2⟩ := h.tree hsk (h.safe.set_clique hcl hqon hqc)
    refine ⟨_, ?_, s1, s2⟩
    simp only [c1]
    rw [rd_eq_ok.mpr hcl, ok_bind]
    show (do
      let (_, mapping) ← mapper cl.vars (s.side fwd)
      let (_, p) ← Potential.update (some num) den cl.p (mapping.getD [])
      let cs ← wr m.tree.cliques c { cl with p := p }
      ok { m with tree := { m.tree with cliques := cs } }) = _
    rw [o1, ok_bind]
    simp only
    rw [o2, hupd, ok_bind, wr_lt c2, ok_bind]

theorem startPass_any (hP : Closed P) {m : Model K} (h : Fit P card vars m) {s : Interface} (hs : Link card vars m s) (fwd : Bool) {a : Potential K}
    (ha : Letter P card s a) : ∃ a', startPass s fwd m a = ok a' ∧ Letter P card s a' := by
  unfold startPass
  by_cases hne : s.out = []
  · rw [if_pos (by rw [hne]; rfl)]
    refine ⟨_, rfl, ⟨⟨?_, ha.1.wf.2⟩, ha.1.card_eq⟩, Cells.replicate hP.one⟩
    simp only [Potential.uniform, Potential.size, List.length_replicate]; exact ha.1.wf.1
  · rw [if_neg (by simpa using hne)]
    have hside : (s.side !fwd).Nodup ∧ ∃ c, (if fwd then s.outClique else s.inClique) = some c ∧ c < m.tree.cliques.length ∧ ∀ v ∈ s.side !fwd, v ∈ m.tree.varsOf c := by
      unfold Interface.side
      cases fwd
      · exact ⟨hs.prev.1, hs.cliqueIn hne⟩
      · exact ⟨hs.out.1, hs.cliqueOut hne⟩
    obtain ⟨hnd, c, c1, c2, c3⟩ := hside
    obtain ⟨cl, hcl⟩ : ∃ cl, m.tree.cliques[c]? = some cl := ⟨_, List.getElem?_eq_getElem c2⟩
    rw [JTree.varsOf_eq hcl] at c3
    obtain ⟨n1, n2, n3⟩ := h.safe.typed.clq c cl hcl
    obtain ⟨o, o1, o2⟩ := mapper_places hnd (set := cl.vars) c3
    have hat := hs.table ha.1 (!fwd)
    have hlen : (s.side !fwd).length ≤ cl.vars.length := (hnd.subperm c3).length_le
    obtain ⟨q, hg, q1, q2, q3⟩ := Potential.general_any hP n2.wf hat.wf (mapping := places cl.vars (s.side !fwd))
      (by rw [n2.card_eq, hat.card_eq]; exact places_into c3) (by rw [n2.card_eq, hat.card_eq]; simpa using hlen) (h.safe.clq c cl hcl).1
    obtain ⟨r, r1, r2, r3⟩ := Potential.normalise_cells hP q3 (off := 0) (n := q.size) (by simp [Potential.size])
    refine ⟨{ q with data := r }, ?_, ⟨⟨by simp only; rw [r2]; exact q1.1, q1.2⟩, by simp only; rw [q2]; exact ha.1.card_eq⟩, r3⟩
    simp only [c1]
    rw [rd_eq_ok.mpr hcl, ok_bind]
    have e : (if fwd = true then s.out else s.prev) = s.side !fwd := by cases fwd <;> rfl
    rw [e, o1, ok_bind]
    simp only
    rw [o2, hg, ok_bind]
    simp only
    unfold Potential.normalise
    rw [r1, ok_bind]

theorem newMessage_any (hP : Closed P) {m : Model K} (h : Fit P card vars m) {s : Interface} (hs : Link card vars m s) (hpos : ∀ v ∈ vars, 0 < card v) :
    ∃ a, newMessage s m = ok a ∧ Letter P card s a := by
  have hc : s.out.map (fun v => (m.var v).card) = s.out.map card := List.map_congr_left fun v _ => h.card v
  refine ⟨⟨s.out.map card, List.replicate (s.out.map card).prod 1⟩, ?_, ⟨⟨by simp, ?_⟩, rfl⟩, Cells.replicate hP.one⟩
  · unfold newMessage
    rw [hc]
    unfold Potential.new
    rw [if_neg (by omega)]
    have hl : (s.out.length : Int).toNat = (s.out.map card).length := by simp
    simp only [hl]
    rw [Potential.sizeOf_eq _ (le_refl _)]
    simp only [ok_bind, List.take_length]
  · intro c hc
    obtain ⟨u, hu, rfl⟩ := List.mem_map.mp hc
    exact hpos u (hs.out.2 u hu)

/-- what is asked of a time series -/
structure Usable (vs : List Nat) (ts : TimeSeries) : Prop where
  wf : ts.WellFormed
  sub : ∀ v ∈ ts.observed, v ∈ vs

theorem insertStep_any (hP : Closed P) {m : Model K} (h : Fit P card vars m) {ts : TimeSeries} (hts : Usable vars ts) (marked : Nat → Bool) {t : Nat} (ht : t < ts.length) :
    ∃ m', insertStep marked ts (t : Int) m = ok (0, m') ∧ Same m m' ∧ Fit P card vars m' := by
  have htd : t < ts.data.length := by rw [hts.wf.rows]; exact ht
  have hrl : ts.data[t].length = ts.observed.length := hts.wf.row _ (List.getElem_mem _)
  unfold insertStep
  rw [if_neg (by omega)]
  have hnum : ((ts.numVars : Int) - ts.numHidden).toNat = ts.observed.length := by rw [hts.wf.hidden]; simp
  rw [hnum]
  obtain ⟨m', e1, e2, e3⟩ := loop_inv (n := ts.observed.length) (s := m) (f := fun i (m : Model K) => do
      let v ← rd ts.observed i
      if marked v then do
        let row ← rd ts.data (t : Int).toNat
        let d ← rd row i
        if 0 ≤ d then do
          let r ← m.enterIndexObservation v d
          ok r.2
        else ok m
      else ok m) (fun _ m' => Same m m' ∧ Fit P card vars m') ⟨Same.refl m, h⟩ (by
    rintro i hi m1 ⟨k1, k2⟩
    rw [rd_lt hi, ok_bind]
    split
    · rw [Int.toNat_natCast, rd_lt htd, ok_bind, rd_lt (by omega), ok_bind]
      split
      · obtain ⟨m2, g1, g2, g3⟩ := enterIndexObservation_any hP k2 (hts.sub _ (List.getElem_mem hi)) (ts.data[t][i])
        refine ⟨m2, ?_, k1.trans g2, g3⟩
        rw [g1, ok_bind]
      · exact ⟨m1, rfl, k1, k2⟩
    · exact ⟨m1, rfl, k1, k2⟩)
  exact ⟨m', by rw [e1, ok_bind], e2, e3⟩

theorem absorb_any (hP : Closed P) {m : Model K} (h : Fit P card vars m) {ts : TimeSeries} (hts : Usable vars ts) (marked : Nat → Bool) {t : Nat} (ht : t < ts.length) (ll : K) :
    ∃ m', absorb none marked ts t (m, ll) = ok (m', ll) ∧ Same m m' ∧ Fit P card vars m' := by
  obtain ⟨m1, a1, a2, a3⟩ := insertStep_any hP h hts marked ht
  obtain ⟨m2, b1, b2, b3⟩ := makeConsistent_any hP a3
  refine ⟨m2, ?_, a2.trans b2, b3⟩
  unfold absorb
  simp only
  rw [a1, ok_bind]
  simp only
  rw [b1, ok_bind]

/-- the numbers reported for a variable -/
def Answer (Q : K → Prop) (n : Nat) (r : List K) : Prop := r.length = n ∧ Cells Q r

theorem posterior_any (hP : Closed P) (hQ : Normal P Q) {m : Model K} (h : Fit P card vars m) {v : Nat} (hv : v ∈ vars) :
    ∃ r m', posterior m v = ok (r, m') ∧ Same m m' ∧ Fit P card vars m' ∧ Answer Q (card v) r := by
  obtain ⟨c, f1, f2, f3, f4⟩ := findFamily_any h hv
  obtain ⟨m1, hm1⟩ : ∃ m1, m1 = m.memo v c := ⟨_, rfl⟩
  have s1 : Same m m1 := by rw [hm1]; exact memo_same m v c
  have f2' : c < m1.tree.cliques.length := by rw [hm1]; exact f2
  have f3' : v ∈ m1.tree.varsOf c := by rw [hm1]; exact f3
  rw [← hm1] at f1 f4
  obtain ⟨d, d1, d2, d3⟩ := marginalise_any hP f4 f2' f3'
  obtain ⟨r, r1, r2, r3⟩ := Potential.normalise_cells hP d3 (off := 0) (n := card v) (by omega)
  refine ⟨r, m1, ?_, s1, f4, by omega, hQ d d3 r (by rw [d2]; exact r1)⟩
  unfold posterior
  rw [f1, ok_bind]
  simp only
  rw [d1, ok_bind]
  simp only
  rw [f4.card, r1, ok_bind]

/-- the numbers reported for a time step -/
def Answers (Q : K → Prop) (card : Nat → Nat) (vs : List Nat) (row : List (List K)) : Prop := List.Forall₂ (fun v r => Answer Q (card v) r) vs row

theorem posteriors_any (hP : Closed P) (hQ : Normal P Q) {m : Model K} (h : Fit P card vars m) {vs : List Nat} (hvs : ∀ v ∈ vs, v ∈ vars) :
    ∃ row m', posteriors vs m = ok (row, m') ∧ Same m m' ∧ Fit P card vars m' ∧ Answers Q card vs row := by
  have key : ∀ (vs : List Nat) (acc : List (List K)) (m : Model K), Fit P card vars m → (∀ v ∈ vs, v ∈ vars) →
      ∃ row m', vs.foldlM (fun (st : List (List K) × Model K) v => do
        let (r, m) ← posterior st.2 v
        ok (st.1 ++ [r], m)) (acc, m) = ok (acc ++ row, m') ∧ Same m m' ∧ Fit P card vars m' ∧ Answers Q card vs row := by
    intro vs
    induction vs with
    | nil => intro acc m h _; exact ⟨[], m, by rw [List.append_nil]; rfl, Same.refl m, h, List.Forall₂.nil⟩
    | cons v vs ih =>
      intro acc m h hvs
      obtain ⟨r, m1, a1, a2, a3, a4⟩ := posterior_any hP hQ h (hvs v (List.mem_cons_self ..))
      obtain ⟨row, m2, b1, b2, b3, b4⟩ := ih (acc ++ [r]) m1 a3 (fun u hu => hvs u (List.mem_cons_of_mem _ hu))
      refine ⟨r :: row, m2, ?_, a2.trans b2, b3, List.Forall₂.cons a4 b4⟩
      rw [List.foldlM_cons]
      simp only [a1]
      refine Eq.trans b1 ?_
      simp
  obtain ⟨row, m', h1, h2⟩ := key vs [] m h hvs
  exact ⟨row, m', by simpa [posteriors] using h1, h2⟩

/-- the model with the message from the slice before -/
theorem arriveForward_any (hP : Closed P) {m : Model K} (h : Fit P card vars m) {s : Interface} (hs : Link card vars m s) (t : Nat) {a : Potential K}
    (ha : Letter P card s a) : ∃ m', arriveForward s t m a = ok m' ∧ Same m m' ∧ Fit P card vars m' := by
  unfold arriveForward
  split
  · exact finishPass_any hP h hs true ha (by intro d hd; cases hd)
  · exact ⟨m, rfl, Same.refl m, h⟩

theorem forwardStep_any (hP : Closed P) (hQ : Normal P Q) {st : Filter K} (h : Fit P card vars st.model) {s : Interface} (hs : Link card vars st.model s)
    (ha : Letter P card s st.alpha) {ts : TimeSeries} (hts : Usable vars ts) (marked : Nat → Bool) {vs : List Nat} (hvs : ∀ v ∈ vs, v ∈ vars) {t : Nat} (ht : t < ts.length) :
    ∃ st' row, forwardStep none s marked ts vs t st = ok st' ∧ Same st.model st'.model ∧ Fit P card vars st'.model ∧ Letter P card s st'.alpha ∧
      st'.results = st.results ++ [row] ∧ Answers Q card vs row := by
  obtain ⟨m1, a1, a2, a3⟩ := arriveForward_any hP h hs t ha
  obtain ⟨m2, b1, b2, b3⟩ := absorb_any hP a3 hts marked ht st.ll
  obtain ⟨row, m3, c1, c2, c3, c4⟩ := posteriors_any hP hQ b3 hvs
  obtain ⟨a', d1, d2⟩ := startPass_any hP c3 (hs.same (a2.trans (b2.trans c2))) true ha
  obtain ⟨m4, e1, e2, e3⟩ := reset_any hP c3
  obtain ⟨m5, g1, g2, g3⟩ := usePriors_any hP e3 true
  refine ⟨{ model := m5, alpha := a', results := st.results ++ [row], ll := st.ll }, row, ?_, a2.trans (b2.trans (c2.trans (e2.trans g2))), g3, d2, rfl, c4⟩
  unfold forwardStep
  rw [a1, ok_bind, b1, ok_bind]
  simp only
  rw [c1, ok_bind]
  simp only
  rw [d1, ok_bind, e1, ok_bind, g1, ok_bind]

/-- all reported numbers of an inference over time -/
def Report (Q : K → Prop) (card : Nat → Nat) (vs : List Nat) (n : Nat) (results : List (List (List K))) : Prop :=
  results.length = n ∧ ∀ row ∈ results, Answers Q card vs row

theorem forward_any (hP : Closed P) (hQ : Normal P Q) {m : Model K} (h : Fit P card vars m) {s : Interface} (hs : Link card vars m s) (hpos : ∀ v ∈ vars, 0 < card v)
    {ts : TimeSeries} (hts : Usable vars ts) (marked : Nat → Bool) {vs : List Nat} (hvs : ∀ v ∈ vs, v ∈ vars) :
    ∃ results ll m', forwardInference none s marked ts vs m = ok (results, ll, m') ∧ Same m m' ∧ Fit P card vars m' ∧ Report Q card vs ts.length results := by
  obtain ⟨a, a1, a2⟩ := newMessage_any hP h hs hpos
  obtain ⟨m1, b1, b2, b3⟩ := reset_any hP h
  obtain ⟨m2, c1, c2, c3⟩ := usePriors_any hP b3 false
  obtain ⟨st, e1, e2, e3, _, e4, e5⟩ := loop_inv (n := ts.length) (f := forwardStep none s marked ts vs) (s := { model := m2, alpha := a, results := [], ll := 0 })
    (fun i st => Same m st.model ∧ Fit P card vars st.model ∧ Letter P card s st.alpha ∧ st.results.length = i ∧ ∀ row ∈ st.results, Answers Q card vs row)
    ⟨b2.trans c2, c3, a2, rfl, by simp⟩ (by
      rintro i hi st ⟨h1, h2, h3, h4, h5⟩
      obtain ⟨st', row, g1, g2, g3, g4, g5, g6⟩ := forwardStep_any hP hQ h2 (hs.same h1) h3 hts marked hvs hi
      refine ⟨st', g1, h1.trans g2, g3, g4, by rw [g5]; simp [h4], ?_⟩
      intro r hr
      rw [g5, List.mem_append, List.mem_singleton] at hr
      rcases hr with hr | rfl
      · exact h5 r hr
      · exact g6)
  refine ⟨st.results, st.ll, st.model, ?_, e2, e3, e4, e5⟩
  unfold forwardInference
  rw [a1, ok_bind, b1, ok_bind, c1, ok_bind, e1, ok_bind]

/-! ### smoothing -/

/-- the stored messages -/
def Letters (P : K → Prop) (card : Nat → Nat) (s : Interface) (n : Nat) (l : List (Potential K)) : Prop := l.length = n + 1 ∧ ∀ a ∈ l, Letter P card s a

theorem Letters.set {s : Interface} {n : Nat} {l : List (Potential K)} (h : Letters P card s n l) {t : Nat} {a : Potential K} (ha : Letter P card s a) :
    Letters P card s n (l.set t a) := by
  refine ⟨by rw [List.length_set]; exact h.1, ?_⟩
  intro b hb
  rcases List.mem_or_eq_of_mem_set hb with hb | rfl
  · exact h.2 b hb
  · exact ha

theorem arriveStored_any (hP : Closed P) {m : Model K} (h : Fit P card vars m) {s : Interface} (hs : Link card vars m s) {n t : Nat} (ht : t ≤ n) {l : List (Potential K)}
    (hl : Letters P card s n l) : ∃ m', arriveStored s t m l = ok m' ∧ Same m m' ∧ Fit P card vars m' := by
  unfold arriveStored
  split
  · have := hl.1
    rw [rd_lt (show t - 1 < l.length by omega), ok_bind]
    exact finishPass_any hP h hs true (hl.2 _ (List.getElem_mem _)) (by intro d hd; cases hd)
  · exact ⟨m, rfl, Same.refl m, h⟩

theorem smoothForward_any (hP : Closed P) {st : Smoother K} (h : Fit P card vars st.model) {s : Interface} (hs : Link card vars st.model s) {ts : TimeSeries}
    (hl : Letters P card s ts.length st.messages) (hts : Usable vars ts) (marked : Nat → Bool) {t : Nat} (ht : t < ts.length) :
    ∃ st', smoothForward none s marked ts t st = ok st' ∧ Same st.model st'.model ∧ Fit P card vars st'.model ∧ Letters P card s ts.length st'.messages := by
  obtain ⟨m1, a1, a2, a3⟩ := arriveStored_any hP h hs (le_of_lt ht) hl
  obtain ⟨m2, b1, b2, b3⟩ := absorb_any hP a3 hts marked ht st.ll
  have htl : t < st.messages.length := by rw [hl.1]; omega
  obtain ⟨a', d1, d2⟩ := startPass_any hP b3 (hs.same (a2.trans b2)) true (hl.2 _ (List.getElem_mem htl))
  obtain ⟨m4, e1, e2, e3⟩ := reset_any hP b3
  obtain ⟨m5, g1, g2, g3⟩ := usePriors_any hP e3 (decide (1 < ts.length))
  refine ⟨{ model := m5, messages := st.messages.set t a', ll := st.ll }, ?_, a2.trans (b2.trans (e2.trans g2)), g3, hl.set d2⟩
  unfold smoothForward
  rw [a1, ok_bind, b1, ok_bind]
  simp only
  rw [rd_lt htl, ok_bind, d1, ok_bind, wr_lt htl, ok_bind, e1, ok_bind, g1, ok_bind]

theorem smoothBackward_any (hP : Closed P) (hQ : Normal P Q) {m : Model K} (h : Fit P card vars m) {s : Interface} (hs : Link card vars m s) {ts : TimeSeries}
    {l : List (Potential K)} (hl : Letters P card s ts.length l) (hts : Usable vars ts) (marked : Nat → Bool) {vs : List Nat} (hvs : ∀ v ∈ vs, v ∈ vars) {t : Nat}
    (ht : t < ts.length) {res : List (List (List K))} (hres : res.length = ts.length) :
    ∃ m' l' row, smoothBackward s marked ts vs t (m, l, res) = ok (m', l', res.set t row) ∧ Same m m' ∧ Fit P card vars m' ∧ Letters P card s ts.length l' ∧
      Answers Q card vs row := by
  obtain ⟨m1, a1, a2, a3⟩ := arriveStored_any hP h hs (le_of_lt ht) hl
  obtain ⟨m2, b1, b2, b3⟩ := insertStep_any hP a3 hts marked ht
  have htl : t < l.length := by rw [hl.1]; omega
  have hback : ∃ m3, arriveBackward s t ts.length m2 l = ok m3 ∧ Same m2 m3 ∧ Fit P card vars m3 := by
    unfold arriveBackward
    split
    · rw [rd_lt (show t + 1 < l.length by rw [hl.1]; omega), ok_bind, rd_lt htl, ok_bind]
      exact finishPass_any hP b3 (hs.same (a2.trans b2)) false (hl.2 _ (List.getElem_mem _)) (by rintro _ ⟨rfl⟩; exact hl.2 _ (List.getElem_mem _))
    · exact ⟨m2, rfl, Same.refl m2, b3⟩
  obtain ⟨m3, c1, c2, c3⟩ := hback
  obtain ⟨m4, d1, d2, d3⟩ := makeConsistent_any hP c3
  obtain ⟨row, m5, e1, e2, e3, e4⟩ := posteriors_any hP hQ d3 hvs
  have hs5 := hs.same (a2.trans (b2.trans (c2.trans (d2.trans e2))))
  have hdep : ∃ l', departBackward s t m5 l = ok l' ∧ Letters P card s ts.length l' := by
    unfold departBackward
    split
    · obtain ⟨a', g1, g2⟩ := startPass_any hP e3 hs5 false (hl.2 _ (List.getElem_mem htl))
      rw [rd_lt htl, ok_bind, g1, ok_bind, wr_lt htl]
      exact ⟨_, rfl, hl.set g2⟩
    · exact ⟨l, rfl, hl⟩
  obtain ⟨l', g1, g2⟩ := hdep
  obtain ⟨m6, i1, i2, i3⟩ := reset_any hP e3
  obtain ⟨m7, j1, j2, j3⟩ := usePriors_any hP i3 (decide (1 < t))
  refine ⟨m7, l', row, ?_, a2.trans (b2.trans (c2.trans (d2.trans (e2.trans (i2.trans j2))))), j3, g2, e4⟩
  unfold smoothBackward smoothAbsorb smoothLeave
  simp only
  rw [a1, ok_bind, b1, ok_bind]
  simp only
  rw [c1, ok_bind, d1, ok_bind, e1, ok_bind]
  simp only
  rw [wr_lt (by omega), ok_bind, g1, ok_bind, i1, ok_bind, j1, ok_bind, ok_bind]

theorem smooth_any (hP : Closed P) (hQ : Normal P Q) {m : Model K} (h : Fit P card vars m) {s : Interface} (hs : Link card vars m s) (hpos : ∀ v ∈ vars, 0 < card v)
    {ts : TimeSeries} (hts : Usable vars ts) (marked : Nat → Bool) {vs : List Nat} (hvs : ∀ v ∈ vs, v ∈ vars) :
    ∃ results ll m', forwardBackward none s marked ts vs m = ok (results, ll, m') ∧ Same m m' ∧ Fit P card vars m' ∧ Report Q card vs ts.length results := by
  obtain ⟨a, a1, a2⟩ := newMessage_any hP h hs hpos
  obtain ⟨m1, b1, b2, b3⟩ := reset_any hP h
  obtain ⟨m2, c1, c2, c3⟩ := usePriors_any hP b3 false
  obtain ⟨st, e1, e2, e3, e4⟩ := loop_inv (n := ts.length) (f := smoothForward none s marked ts) (s := { model := m2, messages := List.replicate (ts.length + 1) a, ll := 0 })
    (fun _ st => Same m st.model ∧ Fit P card vars st.model ∧ Letters P card s ts.length st.messages)
    ⟨b2.trans c2, c3, by simp, by intro b hb; rw [(List.mem_replicate.mp hb).2]; exact a2⟩ (by
      rintro i hi st ⟨h1, h2, h3⟩
      obtain ⟨st', g1, g2, g3, g4⟩ := smoothForward_any hP h2 (hs.same h1) h3 hts marked hi
      exact ⟨st', g1, h1.trans g2, g3, g4⟩)
  have hdown : ∀ (n : Nat) (m' : Model K) (l : List (Potential K)) (res : List (List (List K))), n ≤ ts.length → Same m m' → Fit P card vars m' →
      Letters P card s ts.length l → res.length = ts.length → (∀ (i : Nat) row, n ≤ i → res[i]? = some row → Answers Q card vs row) →
      ∃ m2 l2 res2, loopDown n (smoothBackward s marked ts vs) (m', l, res) = ok (m2, l2, res2) ∧ Same m m2 ∧ Fit P card vars m2 ∧
        res2.length = ts.length ∧ ∀ (i : Nat) row, res2[i]? = some row → Answers Q card vs row := by
    intro n
    induction n with
    | zero => intro m' l res _ h1 h2 _ h4 h5; exact ⟨m', l, res, rfl, h1, h2, h4, fun i row => h5 i row (Nat.zero_le _)⟩
    | succ n ih =>
      intro m' l res hn h1 h2 h3 h4 h5
      obtain ⟨m2, l2, row, g1, g2, g3, g4, g5⟩ := smoothBackward_any hP hQ h2 (hs.same h1) h3 hts marked hvs (t := n) (by omega) h4
      obtain ⟨m3, l3, res3, k1, k2⟩ := ih m2 l2 (res.set n row) (by omega) (h1.trans g2) g3 g4 (by rw [List.length_set]; exact h4) (by
        intro i r hi hr
        rw [List.getElem?_set] at hr
        by_cases e : n = i
        · subst e
          rw [if_pos rfl, if_pos (by omega)] at hr
          cases hr; exact g5
        · rw [if_neg e] at hr; exact h5 i r (by omega) hr)
      refine ⟨m3, l3, res3, ?_, k2⟩
      show (smoothBackward s marked ts vs n (m', l, res)).bind _ = _
      rw [g1]; exact k1
  obtain ⟨m3, l3, res3, k1, k2, k3, k4, k5⟩ := hdown ts.length st.model st.messages
    (List.replicate ts.length (vs.map (fun v => List.replicate (m2.var v).card (0 : K)))) (le_refl _) e2 e3 e4 (by simp) (by
      intro i row hi hr
      rw [List.getElem?_eq_none (by simpa using hi)] at hr; cases hr)
  refine ⟨res3, st.ll, m3, ?_, k2, k3, k4, ?_⟩
  · unfold forwardBackward newMessages
    rw [a1, ok_bind, ok_bind, b1, ok_bind, c1, ok_bind, e1, ok_bind]
    simp only
    rw [k1, ok_bind]
  · intro row hrow
    obtain ⟨i, hi⟩ := List.mem_iff_getElem?.mp hrow
    exact k5 i row hi

/-! ### sampling -/

theorem lottery_any {d : List K} {n : Nat} (hn : n ≤ d.length) (h0 : 0 < n) (r : K) : ∃ (k : Nat) (b : Bool), lottery d n r = ok ((k : Int), b) ∧ k < n := by
  have key : ∀ (fuel i : Nat) (sum : K), n < fuel + i → i ≤ n → ∃ (k : Nat) (b : Bool), lotteryLoop d n r fuel i sum = ok ((k : Int), b) ∧ k < n := by
    intro fuel
    induction fuel with
    | zero => intro i _ h1 h2; omega
    | succ fuel ih =>
      intro i sum h1 h2
      unfold lotteryLoop
      split
      · exact ⟨n - 1, true, by congr 2; omega, by omega⟩
      · rw [rd_lt (show i < d.length by omega), ok_bind]
        simp only
        split
        · exact ih (i + 1) _ (by omega) (by omega)
        · exact ⟨i, false, rfl, by omega⟩
  exact key (n + 1) 0 0 (by omega) (by omega)

/-- a state drawn for every variable -/
def DrawnRow (card : Nat → Nat) (order : List Nat) (row : List Int) : Prop := List.Forall₂ (fun v (k : Int) => 0 ≤ k ∧ k < card v) order row

theorem draws_any (hP : Closed P) (hQ : Normal P Q) (hpos : ∀ v ∈ vars, 0 < card v) {order : List Nat} (hsub : ∀ v ∈ order, v ∈ vars) (r : Nat → K) {m : Model K} (h : Fit P card vars m)
    {row : List Int} (hr : row.length = order.length) :
    ∃ m' row', loop order.length (drawVariable order r) (m, row) = ok (m', row') ∧ Same m m' ∧ Fit P card vars m' ∧ DrawnRow card order row' := by
  obtain ⟨⟨m', row'⟩, e1, e2, e3, e4, e5⟩ := loop_inv (n := order.length) (f := drawVariable order r) (s := (m, row))
    (fun i st => Same m st.1 ∧ Fit P card vars st.1 ∧ st.2.length = order.length ∧
      ∀ (j v : Nat) (k : Int), j < i → order[j]? = some v → st.2[j]? = some k → 0 ≤ k ∧ k < card v)
    ⟨Same.refl m, h, hr, by intro j _ _ hj; omega⟩ (by
      rintro i hi ⟨m1, row1⟩ ⟨h1, h2, h3, h4⟩
      simp only at h1 h2 h3 h4
      have hv := hsub _ (List.getElem_mem hi)
      obtain ⟨m2, a1, a2, a3⟩ := makeConsistent_any hP h2
      obtain ⟨d, m3, b1, b2, b3, b4, _, _⟩ := answer_any hP hQ a3 hv
      obtain ⟨k, b, c1, c2⟩ := lottery_any (d := d) (n := (m3.var order[i]).card) (by rw [b3.card, b4]) (by rw [b3.card]; exact hpos _ hv) (r i)
      obtain ⟨m4, d1, d2, d3⟩ := enterIndexObservation_any hP b3 hv (k : Int)
      refine ⟨(m4, row1.set i (k : Int)), ?_, h1.trans (a2.trans (b2.trans d2)), d3, by simpa using h3, ?_⟩
      · unfold drawVariable
        simp only
        rw [a1, ok_bind, rd_lt hi, ok_bind, b1, ok_bind]
        simp only
        rw [c1, ok_bind]
        simp only
        rw [wr_lt (by omega), ok_bind, d1, ok_bind]
      · intro j v k' hj hv' hk'
        simp only at hk'
        rw [List.getElem?_set] at hk'
        by_cases e : i = j
        · subst e
          rw [if_pos rfl, if_pos (by omega)] at hk'
          rw [List.getElem?_eq_getElem hi] at hv'
          cases hk'; cases hv'
          rw [b3.card] at c2
          exact ⟨by omega, by omega⟩
        · rw [if_neg e] at hk'; exact h4 j v k' (by omega) hv' hk')
  simp only at e2 e3 e4 e5
  refine ⟨m', row', e1, e2, e3, ?_⟩
  refine List.forall₂_iff_get.mpr ⟨e4.symm, ?_⟩
  intro j h1 h2
  exact e5 j _ _ h1 (List.getElem?_eq_getElem h1) (List.getElem?_eq_getElem h2)

theorem generate_any (hP : Closed P) (hQ : Normal P Q) (hpos : ∀ v ∈ vars, 0 < card v) {m : Model K} (h : Fit P card vars m) {s : Interface} (hs : Link card vars m s)
    (mark : Nat → Bool) (fuel : Nat) (r : Nat → Nat → K) (length : Nat) {order : List Nat} (hord : samplingOrder (fun v => (m.var v).parents) m.varList mark fuel = ok order)
    (hsub : ∀ v ∈ order, v ∈ vars) :
    ∃ ts m', generateData s mark fuel r length m = ok (ts, m') ∧ Same m m' ∧ Fit P card vars m' ∧ ts.observed = order ∧ ts.length = length ∧ ts.data.length = length ∧
      ∀ row ∈ ts.data, DrawnRow card order row := by
  obtain ⟨a, a1, a2⟩ := newMessage_any hP h hs hpos
  obtain ⟨m1, b1, b2, b3⟩ := reset_any hP h
  obtain ⟨m2, c1, c2, c3⟩ := usePriors_any hP b3 false
  obtain ⟨st, e1, e2, e3, _, e4, e6, e5⟩ := loop_inv (n := length) (f := generateStep s order r)
    (s := { model := m2, alpha := a, data := List.replicate length (List.replicate order.length 0) })
    (fun i st => Same m st.model ∧ Fit P card vars st.model ∧ Letter P card s st.alpha ∧ st.data.length = length ∧ (∀ row ∈ st.data, row.length = order.length) ∧
      ∀ j row, j < i → st.data[j]? = some row → DrawnRow card order row)
    ⟨b2.trans c2, c3, a2, by simp, by intro row hr; rw [(List.mem_replicate.mp hr).2]; simp, by intro j _ hj; omega⟩ (by
      rintro i hi st ⟨h1, h2, h3, h4, h5, h6⟩
      obtain ⟨m3, g1, g2, g3⟩ := arriveForward_any hP h2 (hs.same h1) i h3
      have hil : i < st.data.length := by omega
      obtain ⟨m4, row, i1, i2, i3, i4⟩ := draws_any hP hQ hpos hsub (r i) g3 (row := st.data[i]) (h5 _ (List.getElem_mem _))
      obtain ⟨m5, j1, j2, j3⟩ := makeConsistent_any hP i3
      obtain ⟨a', d1, d2⟩ := startPass_any hP j3 (hs.same (h1.trans (g2.trans (i2.trans j2)))) true h3
      obtain ⟨m6, k1, k2, k3⟩ := reset_any hP j3
      obtain ⟨m7, l1, l2, l3⟩ := usePriors_any hP k3 true
      refine ⟨{ model := m7, alpha := a', data := st.data.set i row }, ?_, h1.trans (g2.trans (i2.trans (j2.trans (k2.trans l2)))), l3, d2, by simpa using h4, ?_, ?_⟩
      · unfold generateStep
        rw [g1, ok_bind, rd_lt hil, ok_bind, i1, ok_bind]
        simp only
        rw [wr_lt hil, ok_bind, j1, ok_bind, d1, ok_bind, k1, ok_bind, l1, ok_bind]
      · intro row' hr
        rcases List.mem_or_eq_of_mem_set hr with hr | rfl
        · exact h5 _ hr
        · exact i4.length_eq.symm
      · intro j row' hj hr
        simp only at hr
        rw [List.getElem?_set] at hr
        by_cases e : i = j
        · subst e
          rw [if_pos rfl, if_pos hil] at hr
          cases hr; exact i4
        · rw [if_neg e] at hr; exact h6 j row' (by omega) hr)
  refine ⟨{ numVars := m2.varList.length, numHidden := 0, hidden := [], numObserved := order.length, observed := order, length := length, data := st.data },
    st.model, ?_, e2, e3, rfl, rfl, e4, ?_⟩
  · unfold generateData
    rw [hord, ok_bind, a1, ok_bind, b1, ok_bind, c1, ok_bind, e1, ok_bind]
  · intro row hr
    obtain ⟨j, hj⟩ := List.mem_iff_getElem?.mp hr
    have hjl := (List.getElem?_eq_some_iff.mp hj).1
    exact e5 j row (by simp only at hjl; omega) hj

end Model

/-! ### a model made from a file -/

theorem parse_any (hP : Closed P) (ptr : Nat) {f : NetFile K} (hf : f.Fits) (ht : f.Temporal) (hcells : ∀ q ∈ f.pots, Cells P q.table.data) :
    ∃ m s, NetFile.parseModel ptr f = ok (some (m, s)) ∧ NetFile.build ptr f = ok (some m) ∧ Model.Fit P f.card f.vars m ∧ Model.Link f.card f.vars m s ∧
      ∀ v, (m.var v).parents = NetFile.parentsOf f v := by
  obtain ⟨m, h1, h2, h3, h4, h5⟩ := build_any hP ptr hf hcells
  have ha := interfaceArrays_eq hf ht h2.vars (fun v hv => (h3 v).2.2.trans (oldOutgoing_iff hf ht hv)) (fun v => (h3 v).2.1)
  have hprev : (NetFile.olds f).Nodup ∧ ∀ v ∈ NetFile.olds f, v ∈ f.vars :=
    ⟨(hf.sorted.imp ne_of_lt).filter _, fun v hv => (mem_olds.mp hv).1⟩
  have hout : ((NetFile.olds f).map (NetFile.succ f)).Nodup ∧ ∀ v ∈ (NetFile.olds f).map (NetFile.succ f), v ∈ f.vars :=
    ⟨succ_nodup hf ht, fun v hv => succ_mem ht hv⟩
  by_cases hne : (NetFile.olds f).map (NetFile.succ f) = []
  · refine ⟨m, { prev := NetFile.olds f, out := (NetFile.olds f).map (NetFile.succ f), inClique := none, outClique := none }, ?_, h1, h2,
      ⟨hprev, hout, succ_card ht, fun h => absurd hne h, fun h => absurd hne h⟩, fun v => (h3 v).1⟩
    unfold NetFile.parseModel NetFile.interface
    rw [h1, ok_bind]
    simp only
    rw [ha, ok_bind]
    simp only
    rw [if_neg (by rw [hne]; simp), ok_bind]
  · obtain ⟨i, i1, i2, i3⟩ := findClique_some (t := m.tree) (vs := NetFile.olds f) (by
      obtain ⟨c, c1, c2⟩ := h5
      refine ⟨c, c1, fun v hv => c2 v (mem_olds.mp hv).1 ?_⟩
      obtain ⟨hv, u, hu⟩ := mem_olds.mp hv
      rw [(h3 v).2.2, oldOutgoing_iff hf ht hv, hu]; rfl)
    obtain ⟨o, o1, o2, o3⟩ := findClique_some (t := m.tree) (vs := (NetFile.olds f).map (NetFile.succ f)) (by
      obtain ⟨c, c1, c2⟩ := h4
      refine ⟨c, c1, fun v hv => c2 v (succ_mem ht hv) ?_⟩
      rw [(h3 v).2.1, outgoing_iff hf ht]; exact hv)
    refine ⟨m, { prev := NetFile.olds f, out := (NetFile.olds f).map (NetFile.succ f), inClique := some i, outClique := some o }, ?_, h1, h2,
      ⟨hprev, hout, succ_card ht, fun _ => ⟨i, rfl, i2, i3⟩, fun _ => ⟨o, rfl, o2, o3⟩⟩, fun v => (h3 v).1⟩
    unfold NetFile.parseModel NetFile.interface
    rw [h1, ok_bind]
    simp only
    rw [ha, ok_bind]
    simp only
    rw [if_pos (List.length_pos_iff.mpr hne), i1, ok_bind, o1, ok_bind]
    simp only [ok_bind]

end Nip
