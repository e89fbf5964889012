import Verif.Carry
import Verif.Spec.Unrolled
import Verif.Spec.Series

/-! # Entering data and passing messages between time slices -/

namespace Nip

open Res Spec

set_option linter.unusedSectionVars false

variable {K : Type} [Field K] [LinearOrder K] [IsStrictOrderedRing K]

theorem vision_length (card : Nat → Nat) (seen : Nat → Int) (v : Nat) : (vision (K := K) card seen v).length = card v := by
  unfold vision indicator; split <;> simp

theorem vision_nonneg (card : Nat → Nat) (seen : Nat → Int) (v : Nat) : ∀ a ∈ vision (K := K) card seen v, 0 ≤ a := by
  intro a ha
  unfold vision at ha
  split at ha
  · rw [List.eq_of_mem_replicate ha]; exact zero_le_one
  · unfold indicator at ha
    obtain ⟨j, _, rfl⟩ := List.mem_map.mp ha
    split
    · exact zero_le_one
    · exact le_refl _

theorem getD_ones {n i : Nat} (h : i < n) : (List.replicate n (1 : K)).getD i 0 = 1 := by
  rw [List.getD_eq_getElem _ _ (by simpa using h)]; simp

/-- what is known about the variables of a slice after the first `i` columns -/
def knownAfter (card : Nat → Nat) (seen : Nat → Int) (observed : List Nat) (i : Nat) (v : Nat) : List K :=
  if v ∈ observed.take i then vision card seen v else List.replicate (card v) 1

theorem take_succ_mem {l : List Nat} {i : Nat} (hi : i < l.length) {v : Nat} : v ∈ l.take (i + 1) ↔ v ∈ l.take i ∨ v = l[i] := by
  rw [List.take_add_one, List.getElem?_eq_getElem hi, Option.toList_some, List.mem_append, List.mem_singleton]

theorem knownAfter_succ (card : Nat → Nat) (seen : Nat → Int) {observed : List Nat} {i : Nat} (hi : i < observed.length) :
    knownAfter (K := K) card seen observed (i + 1) =
      Function.update (knownAfter card seen observed i) observed[i] (vision card seen observed[i]) := by
  funext v
  unfold knownAfter
  by_cases e : v = observed[i]
  · subst e
    simp [take_succ_mem hi]
  · rw [Function.update_of_ne e]
    simp only [take_succ_mem hi, e, or_false]

theorem rowSees_getElem {marked : Nat → Bool} {observed : List Nat} (hn : observed.Nodup) {row : List Int} (hr : row.length = observed.length)
    {i : Nat} (hi : i < observed.length) : rowSees marked observed row observed[i] = if marked observed[i] then row[i] else -1 := by
  unfold rowSees
  rw [hn.idxOf_getElem i hi, List.getD_eq_getElem _ _ (by omega)]

theorem rowSees_not_mem {marked : Nat → Bool} {observed : List Nat} {row : List Int} (hr : row.length = observed.length)
    {v : Nat} (hv : v ∉ observed) : rowSees marked observed row v = -1 := by
  unfold rowSees
  split
  · rw [List.idxOf_eq_length hv, ← hr, List.getD_eq_default _ _ (le_refl _)]
  · rfl

theorem vision_unseen {card : Nat → Nat} {seen : Nat → Int} {v : Nat} (h : seen v < 0) : vision (K := K) card seen v = List.replicate (card v) 1 := by
  unfold vision; rw [if_pos h]

theorem knownAfter_all {card : Nat → Nat} {marked : Nat → Bool} {observed : List Nat} {row : List Int} (hr : row.length = observed.length) :
    knownAfter (K := K) card (rowSees marked observed row) observed observed.length = vision card (rowSees marked observed row) := by
  funext v
  unfold knownAfter
  rw [List.take_length]
  split
  · rfl
  · rename_i h
    rw [vision_unseen]
    rw [rowSees_not_mem hr h]; decide

/-- the factor for what is seen -/
def sight (net : Net K) (ev : Nat → List K) (x : Asg) : K := (net.vars.map (fun v => (ev v).getD (x v % net.card v) 0)).prod

namespace Model

theorem Carries.insert {net : Net K} {m : Model K} {w : World K} {T : Asg → K} (h : Carries net m w T) (hl : Local net) {ts : TimeSeries}
    (hts : ts.WellFormed) (hn : ts.observed.Nodup) (hsub : ∀ v ∈ ts.observed, v ∈ net.vars) (marked : Nat → Bool)
    (hw : w.evidence = fun v => List.replicate (net.card v) 1) {t : Nat} (ht : t < ts.length) :
    ∃ m', insertStep marked ts (t : Int) m = ok (0, m') ∧ Keeps net m m' ∧
      Carries net m' { w with evidence := vision net.card (dataSees marked ts.observed ts.data t) }
        (fun x => T x * sight net (vision net.card (dataSees marked ts.observed ts.data t)) x) := by
  have htd : t < ts.data.length := by rw [hts.rows]; exact ht
  obtain ⟨row, hrow⟩ : ∃ row, row = ts.data[t] := ⟨_, rfl⟩
  have hrl : row.length = ts.observed.length := hts.row row (by rw [hrow]; exact List.getElem_mem _)
  have hsees : dataSees marked ts.observed ts.data t = rowSees marked ts.observed row := by
    funext v; unfold dataSees; rw [List.getD_eq_getElem _ _ htd, hrow]
  rw [hsees]
  obtain ⟨seen, hseen⟩ : ∃ seen, seen = rowSees marked ts.observed row := ⟨_, rfl⟩
  rw [← hseen]
  unfold insertStep
  rw [if_neg (by omega)]
  have hnum : ((ts.numVars : Int) - ts.numHidden).toNat = ts.observed.length := by rw [hts.hidden]; simp
  rw [hnum]
  obtain ⟨m', e1, e2, e3⟩ := loop_inv (n := ts.observed.length) (s := m) (f := fun i (m : Model K) => do
      let v ← rd ts.observed i
      if marked v then do
        let row ← rd ts.data (t : Int).toNat
        let d ← rd row i
        if 0 ≤ d then do
          let r ← m.enterIndexObservation v d
          ok r.2
        else ok m
      else ok m)
    (fun i m' => Keeps net m m' ∧ Carries net m' { w with evidence := knownAfter net.card seen ts.observed i }
      (fun x => T x * sight net (knownAfter net.card seen ts.observed i) x))
    (by
      have h0 : knownAfter (K := K) net.card seen ts.observed 0 = w.evidence := by funext v; simp [knownAfter, hw]
      rw [h0]
      refine ⟨Keeps.refl net m, h.congr fun x => ?_⟩
      unfold sight
      rw [List.prod_eq_one, mul_one]
      intro a ha
      obtain ⟨v, hv, rfl⟩ := List.mem_map.mp ha
      rw [hw]
      exact getD_ones (Nat.mod_lt _ (hl.pos v hv)))
    (by
      rintro i hi m1 ⟨k1, k2⟩
      have hob := hsub _ (List.getElem_mem hi)
      have hknown : knownAfter (K := K) net.card seen ts.observed i ts.observed[i] = List.replicate (net.card ts.observed[i]) 1 := by
        unfold knownAfter
        rw [if_neg]
        intro hm
        obtain ⟨j, hj, e⟩ := List.mem_iff_getElem.mp hm
        rw [List.getElem_take] at e
        have := (hn.getElem_inj_iff).mp e
        simp at hj; omega
      have hse := rowSees_getElem (marked := marked) hn hrl hi
      rw [← hseen] at hse
      have hsame : seen ts.observed[i] < 0 → knownAfter (K := K) net.card seen ts.observed (i + 1) = knownAfter net.card seen ts.observed i := by
        intro hneg
        rw [knownAfter_succ net.card seen hi, vision_unseen hneg, ← hknown, Function.update_eq_self]
      by_cases hm : marked ts.observed[i]
      · rw [if_pos hm] at hse
        by_cases hd : 0 ≤ row[i]
        · obtain ⟨m2, g1, g2, g3⟩ := k2.observe (i := row[i]) hd hob (by
            rintro ⟨j, hj, h1, _⟩
            simp only at h1
            rw [hknown, getD_ones hj] at h1
            exact one_ne_zero h1)
          refine ⟨m2, ?_, k1.trans g2, ?_⟩
          · simp only [rd_lt hi, ok_bind, hm, if_true, Int.toNat_natCast, rd_lt htd, ← hrow, rd_lt (show i < row.length by omega), hd, g1]
          · have hvis : vision (K := K) net.card seen ts.observed[i] = indicator (net.card ts.observed[i]) row[i] := by
              unfold vision; rw [hse, if_neg (by omega)]
            rw [knownAfter_succ net.card seen hi, hvis]
            refine g3.congr fun x => ?_
            rw [mul_assoc]
            congr 1
            obtain ⟨R, r1, r2⟩ := evidence_prod h.sound.nodup hob (knownAfter (K := K) net.card seen ts.observed i)
              (indicator (net.card ts.observed[i]) row[i]) (wrap net.card x)
            have hone : (knownAfter (K := K) net.card seen ts.observed i ts.observed[i]).getD (x ts.observed[i] % net.card ts.observed[i]) 0 = 1 := by
              rw [hknown]; exact getD_ones (Nat.mod_lt _ (hl.pos _ hob))
            unfold sight
            refine Eq.trans (congrArg (· * _) r1) (Eq.trans ?_ r2.symm)
            unfold factor
            simp only [wrap]
            rw [hone, if_neg one_ne_zero, one_mul, div_one, mul_comm]
        · refine ⟨m1, ?_, k1, ?_⟩
          · simp only [rd_lt hi, ok_bind, hm, if_true, Int.toNat_natCast, rd_lt htd, ← hrow, rd_lt (show i < row.length by omega), hd, if_false]
          · rw [hsame (by rw [hse]; omega)]; exact k2
      · refine ⟨m1, ?_, k1, ?_⟩
        · simp only [rd_lt hi, ok_bind, hm, if_false, Bool.false_eq_true]
        · rw [hsame (by rw [hse, if_neg hm]; decide)]; exact k2)
  have hall : knownAfter (K := K) net.card seen ts.observed ts.observed.length = vision net.card seen := by rw [hseen]; exact knownAfter_all hrl
  rw [hall] at e3
  refine ⟨m', ?_, e2, e3⟩
  rw [e1, ok_bind]

end Model

theorem sem_nil_card {p : Potential K} (hc : p.card = []) (card : Nat → Nat) (x : Asg) : sem card [] p x = p.data.getD 0 0 := by
  unfold sem states Potential.at' cellOf
  simp [hc, position]

/-- normalising a table scales it -/
theorem normalise_spec {card : Nat → Nat} {us : List Nat} {p : Potential K} (hp : TableOn card us p) (hn : ∀ a ∈ p.data, 0 ≤ a) :
    ∃ q c, p.normalise = ok q ∧ TableOn card us q ∧ 0 < c ∧ ∀ x, sem card us q x = c * sem card us p x := by
  have h := Props.normaliseArray_full p.data
  refine ⟨{ p with data := if p.data.sum = 0 then p.data else p.data.map (· / p.data.sum) }, if p.data.sum = 0 then 1 else p.data.sum⁻¹, ?_, ?_, ?_, ?_⟩
  · unfold Potential.normalise
    have : p.size = p.data.length := rfl
    rw [this, h, ok_bind]
  · refine ⟨⟨?_, hp.wf.2⟩, hp.card_eq⟩
    simp only
    split
    · exact hp.wf.1
    · rw [List.length_map]; exact hp.wf.1
  · split
    · exact one_pos
    · rename_i h
      exact inv_pos.mpr (lt_of_le_of_ne (List.sum_nonneg hn) (Ne.symm h))
  · intro x
    have hx := hp.inRange x
    unfold sem Potential.at' cellOf
    have hl := position_lt hx
    rw [← hp.wf.1] at hl
    simp only
    split
    · rw [one_mul]
    · rw [List.getD_eq_getElem _ _ (by simpa using hl), List.getD_eq_getElem _ _ hl, List.getElem_map, div_eq_mul_inv, mul_comm]

theorem sem_data_nonneg {card : Nat → Nat} {us : List Nat} (hu : us.Nodup) {p : Potential K} (hp : TableOn card us p) (h : ∀ x, 0 ≤ sem card us p x) :
    ∀ a ∈ p.data, 0 ≤ a := by
  intro a ha
  rw [← Potential.ofFn_at'_self hp.wf] at ha
  obtain ⟨j, hj, rfl⟩ := List.mem_map.mp ha
  have hin : InRange p.card (digits p.card j) := digits_inRange hp.wf.2 j
  have hin' := hin
  rw [hp.card_eq] at hin'
  obtain ⟨x, e, _⟩ := exists_states hu hin'
  have := h x
  unfold sem at this
  rw [e, ← hp.card_eq] at this
  exact this

theorem uniform_spec {card : Nat → Nat} {p : Potential K} (hp : TableOn card [] p) :
    TableOn card [] (p.uniform 1) ∧ ∀ x, sem card [] (p.uniform 1) x = 1 := by
  have hc : p.card = [] := hp.card_eq
  have hl : p.data.length = 1 := by rw [hp.wf.1, hc]; rfl
  refine ⟨⟨⟨by simp only [Potential.uniform, Potential.size, List.length_replicate]; exact hp.wf.1, hp.wf.2⟩, hp.card_eq⟩, ?_⟩
  intro x
  rw [sem_nil_card (by exact hc)]
  simp [Potential.uniform, Potential.size, hl]

/-- the two arrays of the interface and the two cliques -/
structure InterfaceOk (net : Net K) (m : Model K) (s : Interface) : Prop where
  prev : s.prev.Nodup ∧ ∀ v ∈ s.prev, v ∈ net.vars
  out : s.out.Nodup ∧ ∀ v ∈ s.out, v ∈ net.vars
  cards : s.out.map net.card = s.prev.map net.card
  cliqueIn : s.out ≠ [] → ∃ c, s.inClique = some c ∧ c < m.tree.cliques.length ∧ ∀ v ∈ s.prev, v ∈ m.tree.varsOf c
  cliqueOut : s.out ≠ [] → ∃ c, s.outClique = some c ∧ c < m.tree.cliques.length ∧ ∀ v ∈ s.out, v ∈ m.tree.varsOf c

theorem InterfaceOk.length {net : Net K} {m : Model K} {s : Interface} (h : InterfaceOk net m s) : s.out.length = s.prev.length := by
  have := congrArg List.length h.cards
  simpa using this

theorem InterfaceOk.keep {net : Net K} {m m' : Model K} {s : Interface} (h : InterfaceOk net m s) (k : m'.tree.skel = m.tree.skel) : InterfaceOk net m' s := by
  refine ⟨h.prev, h.out, h.cards, ?_, ?_⟩
  · intro hne; rw [JTree.skel_len k]
    obtain ⟨c, h1, h2, h3⟩ := h.cliqueIn hne
    exact ⟨c, h1, h2, by rw [JTree.skel_vars k]; exact h3⟩
  · intro hne; rw [JTree.skel_len k]
    obtain ⟨c, h1, h2, h3⟩ := h.cliqueOut hne
    exact ⟨c, h1, h2, by rw [JTree.skel_vars k]; exact h3⟩

/-- the side of the interface that a message is over when it arrives -/
def Interface.side (s : Interface) (forward : Bool) : List Nat := if forward then s.prev else s.out

theorem InterfaceOk.table {net : Net K} {m : Model K} {s : Interface} (h : InterfaceOk net m s) {p : Potential K} (hp : TableOn net.card s.out p) (fwd : Bool) :
    TableOn net.card (s.side fwd) p := by
  unfold Interface.side
  cases fwd
  · exact hp
  · exact ⟨hp.wf, hp.card_eq.trans h.cards⟩

namespace Model

theorem Carries.finish {net : Net K} {m : Model K} {w : World K} {T : Asg → K} (h : Carries net m w T) {s : Interface} (hs : InterfaceOk net m s)
    (fwd : Bool) {num : Potential K} {den : Option (Potential K)} (hnum : TableOn net.card s.out num) (hden : ∀ d, den = some d → TableOn net.card s.out d)
    (hn : ∀ x, 0 ≤ sem net.card (s.side fwd) num x) (hd : ∀ d, den = some d → ∀ x, 0 ≤ sem net.card (s.side fwd) d x) :
    ∃ m', finishPass s fwd m num den = ok m' ∧ Keeps net m m' ∧
      Carries net m' w (fun x => T x * if s.out = [] then 1 else ratio net.card (s.side fwd) num den x) := by
  unfold finishPass
  by_cases hne : s.out = []
  · refine ⟨m, by rw [if_pos (by rw [hne]; rfl)], Keeps.refl net m, h.congr fun x => ?_⟩
    rw [if_pos hne, mul_one]
  · rw [if_neg (by simpa using hne)]
    have hside : (s.side fwd).Nodup ∧ ∃ c, (if fwd then s.inClique else s.outClique) = some c ∧ c < m.tree.cliques.length ∧ ∀ v ∈ s.side fwd, v ∈ m.tree.varsOf c := by
      unfold Interface.side
      cases fwd
      · exact ⟨hs.out.1, hs.cliqueOut hne⟩
      · exact ⟨hs.prev.1, hs.cliqueIn hne⟩
    obtain ⟨hnd, c, c1, c2, c3⟩ := hside
    obtain ⟨cl, hcl⟩ : ∃ cl, m.tree.cliques[c]? = some cl := ⟨_, List.getElem?_eq_getElem c2⟩
    rw [JTree.varsOf_eq hcl] at c3
    obtain ⟨o, o1, o2⟩ := mapper_places hnd (set := cl.vars) c3
    obtain ⟨q, m', q1, q2, q3, q4⟩ := h.scale hcl (us := s.side fwd) c3 hnd (hs.table hnum fwd) (fun d hd' => hs.table (hden d hd') fwd) hn hd
    refine ⟨m', ?_, q3, q4.congr fun x => by rw [if_neg hne]⟩
    simp only [c1]
    rw [rd_eq_ok.mpr hcl, ok_bind]
    show (do
      let (_, mapping) ← mapper cl.vars (s.side fwd)
      let (_, p) ← Potential.update (some num) den cl.p (mapping.getD [])
      let cs ← wr m.tree.cliques c { cl with p := p }
      ok { m with tree := { m.tree with cliques := cs } }) = _
    rw [o1, ok_bind]
    simp only
    rw [o2, q1, ok_bind, wr_lt c2, ok_bind, q2]

/-- the message that leaves a slice is a positive multiple of the marginal -/
theorem Carries.start {net : Net K} {m : Model K} {w : World K} {T : Asg → K} (h : Carries net m w T)
    (ha : m.tree.Agrees net.card (m.tree.st net.card)) {s : Interface} (hs : InterfaceOk net m s)
    (fwd : Bool) {a : Potential K} (hat : TableOn net.card s.out a) (hT : ∀ x, 0 ≤ T x) :
    ∃ a', startPass s fwd m a = ok a' ∧ TableOn net.card s.out a' ∧ (s.out = [] → ∀ x, sem net.card [] a' x = 1) ∧
      (s.out ≠ [] → ∃ c, 0 < c ∧ ∀ x, sem net.card (s.side !fwd) a' x = c * sumOver net.card (without net.vars (s.side !fwd)) T x) := by
  unfold startPass
  by_cases hne : s.out = []
  · rw [hne] at hat
    obtain ⟨u1, u2⟩ := uniform_spec hat
    refine ⟨_, by rw [if_pos (by rw [hne]; rfl)], by rw [hne]; exact u1, fun _ => u2, fun h => absurd hne h⟩
  · rw [if_neg (by simpa using hne)]
    have hside : (s.side !fwd).Nodup ∧ ∃ c, (if fwd then s.outClique else s.inClique) = some c ∧ c < m.tree.cliques.length ∧ ∀ v ∈ s.side !fwd, v ∈ m.tree.varsOf c := by
      unfold Interface.side
      cases fwd
      · exact ⟨hs.prev.1, hs.cliqueIn hne⟩
      · exact ⟨hs.out.1, hs.cliqueOut hne⟩
    obtain ⟨hnd, c, c1, c2, c3⟩ := hside
    have c3' := c3
    obtain ⟨cl, hcl⟩ : ∃ cl, m.tree.cliques[c]? = some cl := ⟨_, List.getElem?_eq_getElem c2⟩
    rw [JTree.varsOf_eq hcl] at c3
    obtain ⟨n1, n2, n3⟩ := h.sound.typed.clq c cl hcl
    obtain ⟨o, o1, o2⟩ := mapper_places hnd (set := cl.vars) c3
    have hat' := hs.table hat (!fwd)
    have hlen : (s.side !fwd).length ≤ cl.vars.length := (hnd.subperm c3).length_le
    have hg := Potential.generalMarginalise_ofFn n2.wf hat'.wf (mapping := places cl.vars (s.side !fwd))
      (by rw [n2.card_eq, hat'.card_eq]; exact places_into c3) (by rw [n2.card_eq, hat'.card_eq]; simpa using hlen)
    obtain ⟨q, hq⟩ : ∃ q, q = Potential.ofFn a.card (fun y => sumTuples cl.p.card (fun x => project (places cl.vars (s.side !fwd)) x = y) cl.p.at') := ⟨_, rfl⟩
    rw [← hq] at hg
    have hqon : TableOn net.card (s.side !fwd) q := by rw [hq, hat'.card_eq]; exact ofFn_on hat'.pos _
    have hqsem : ∀ x, sem net.card (s.side !fwd) q x = sumOver net.card (without net.vars (s.side !fwd)) T x := by
      intro x
      rw [hq, hat'.card_eq, sem_ofFn hat'.pos]
      refine Eq.trans (sumTuples_sem n1 c3 n2 x) ?_
      rw [← h.part ha c2 c3', JTree.varsOf_eq hcl]
      have hphi : m.tree.phi net.card c = sem net.card cl.vars cl.p := by
        funext x; unfold JTree.phi; rw [hcl]
      rw [hphi]
      rfl
    obtain ⟨a', k, r1, r2, r3, r4⟩ := normalise_spec hqon (sem_data_nonneg hnd hqon (by intro x; rw [hqsem]; exact sumOver_nonneg hT x))
    refine ⟨a', ?_, ⟨r2.wf, ?_⟩, fun h => absurd h hne, fun _ => ⟨k, r3, fun x => by rw [r4, hqsem]⟩⟩
    · simp only [c1]
      rw [rd_eq_ok.mpr hcl, ok_bind]
      have e : (if fwd = true then s.out else s.prev) = s.side !fwd := by cases fwd <;> rfl
      rw [e, o1, ok_bind]
      simp only
      rw [o2, hg, ok_bind]
      exact r1
    · rw [r2.card_eq]
      unfold Interface.side
      cases fwd
      · exact hs.cards.symm
      · rfl

end Model

end Nip
