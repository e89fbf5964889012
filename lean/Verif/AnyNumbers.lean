import Verif.Ops

/-!
# The inference code for numbers without laws

Nothing is assumed about the numbers except what is said about the set `P`, which is closed under the operations as the code uses them.  With the set
of all numbers this is about the accesses to arrays only.
-/

namespace Nip

open Res Spec

set_option linter.unusedSectionVars false

variable {K : Type} [Zero K] [One K] [Add K] [_root_.Sub K] [Mul K] [Div K] [LinearOrder K]

/-- a set of numbers that the code does not leave -/
structure Closed (P : K → Prop) : Prop where
  zero : P 0
  one : P 1
  add : ∀ a b, P a → P b → P (a + b)
  mul : ∀ a b, P a → P b → P (a * b)
  div : ∀ a b, P a → P b → b ≠ 0 → P (a / b)

/-- the cells of a table are in the set -/
def Cells (P : K → Prop) (l : List K) : Prop := ∀ a ∈ l, P a

variable {P : K → Prop}

theorem Cells.set {l : List K} (h : Cells P l) (i : Nat) {a : K} (ha : P a) : Cells P (l.set i a) := by
  intro b hb
  rcases List.mem_or_eq_of_mem_set hb with h1 | h1
  · exact h b h1
  · rw [h1]; exact ha

theorem Cells.getD {l : List K} (h : Cells P l) (h0 : P 0) (i : Nat) : P (l.getD i 0) := by
  by_cases hi : i < l.length
  · rw [List.getD_eq_getElem _ _ hi]; exact h _ (List.getElem_mem hi)
  · rw [List.getD_eq_default _ _ (by omega)]; exact h0

theorem Cells.replicate {n : Nat} {a : K} (ha : P a) : Cells P (List.replicate n a) := by
  intro b hb; rw [List.eq_of_mem_replicate hb]; exact ha

theorem Cells.at' {p : Potential K} (h : Cells P p.data) (h0 : P 0) (x : List Nat) : P (p.at' x) := by
  unfold Potential.at' cellOf
  exact h.getD h0 _

theorem cells_ofFn {c : List Nat} {f : List Nat → K} (h : ∀ x, P (f x)) : Cells P (Potential.ofFn c f).data := by
  intro a ha
  unfold Potential.ofFn at ha
  obtain ⟨j, _, rfl⟩ := List.mem_map.mp ha
  exact h _

namespace Potential

theorem general_any (hP : Closed P) {p q : Potential K} (hp : p.Wf) (hq : q.Wf) {mapping : List Nat} (hm : Into p.card mapping q.card)
    (hdim : q.card.length ≤ p.card.length) (hc : Cells P p.data) :
    ∃ r, generalMarginalise p q mapping = ok (0, r) ∧ r.Wf ∧ r.card = q.card ∧ Cells P r.data := by
  unfold generalMarginalise
  rw [if_neg (by simp only [dim]; omega)]
  by_cases h0 : q.dim = 0
  · rw [if_pos h0]
    have hcd : q.card = [] := List.length_eq_zero_iff.mp h0
    have hl : q.data.length = 1 := by have := hq.1; rw [hcd] at this; simpa using this
    rw [wr_lt (by omega), ok_bind]
    obtain ⟨d, h1, h2, h3⟩ := loop_inv (n := p.size) (f := fun i (d : List K) => do
      let a ← rd d 0
      let s ← rd p.data i
      wr d 0 (a + s)) (s := q.data.set 0 0) (fun _ d => d.length = 1 ∧ Cells P d)
      ⟨by simpa using hl, by
        obtain ⟨a, ha⟩ := List.length_eq_one_iff.mp hl
        rw [ha]; intro b hb; simp at hb; rw [hb]; exact hP.zero⟩
      (by
        rintro i hi d ⟨e1, e2⟩
        have hi' : i < p.data.length := hi
        rw [rd_lt (by omega), ok_bind, rd_lt hi', ok_bind, wr_lt (by omega)]
        exact ⟨_, rfl, by simpa using e1, e2.set 0 (hP.add _ _ (e2 _ (List.getElem_mem _)) (hc _ (List.getElem_mem _)))⟩)
    rw [h1, ok_bind]
    exact ⟨_, rfl, ⟨by show d.length = _; rw [h2, hcd]; rfl, hq.2⟩, rfl, h3⟩
  · rw [if_neg h0]
    obtain ⟨d, h1, h2, h3⟩ := loop_inv (n := p.size) (f := fun i (d : List K) => do
      let idx ← p.indicesOf i
      let didx ← choose idx mapping q.dim
      let k ← pointer q.card didx
      let a ← rd d k
      let s ← rd p.data i
      wr d k (a + s)) (s := (q.uniform 0).data) (fun _ d => d.length = q.data.length ∧ Cells P d)
      ⟨by simp [uniform, size], Cells.replicate hP.zero⟩
      (by
        rintro i hi d ⟨e1, e2⟩
        have hi' : i < p.data.length := hi
        have hk := position_project_lt hp hq hm i
        rw [indicesOf_eq hp hi, ok_bind, choose_pointer hm, ok_bind, pointer_eq (by rw [project_length, into_length hm]), ok_bind, rd_lt (by omega), ok_bind,
          rd_lt hi', ok_bind, wr_lt (by omega)]
        exact ⟨_, rfl, by simpa using e1, e2.set _ (hP.add _ _ (e2 _ (List.getElem_mem _)) (hc _ (List.getElem_mem _)))⟩)
    rw [h1, ok_bind]
    exact ⟨_, rfl, ⟨by show d.length = _; rw [h2]; exact hq.1, hq.2⟩, rfl, h3⟩

theorem total_any (hP : Closed P) {p : Potential K} (hp : p.Wf) (hc : Cells P p.data) {dest : List K} (hd : Cells P dest) {v : Nat} (hv : v < p.card.length)
    (hl : p.card[v] ≤ dest.length) :
    ∃ r, totalMarginalise p dest v = ok (0, r) ∧ r.length = dest.length ∧ Cells P r := by
  unfold totalMarginalise
  rw [if_neg (by simp only [dim]; omega)]
  simp only [Int.toNat_natCast, rd_lt hv, ok_bind]
  obtain ⟨d0, h1, h2, h3⟩ := loop_inv (n := p.card[v]) (f := fun i (d : List K) => wr d i 0) (s := dest) (fun _ d => d.length = dest.length ∧ Cells P d)
    ⟨rfl, hd⟩ (by
      rintro i hi d ⟨e1, e2⟩
      rw [wr_lt (by omega)]
      exact ⟨_, rfl, by simpa using e1, e2.set _ hP.zero⟩)
  rw [h1, ok_bind]
  obtain ⟨d1, k1, k2, k3⟩ := loop_inv (n := p.size) (f := fun i (d : List K) => do
      let index ← partialIndex p.card p.size i v
      let a ← rd d index
      let s ← rd p.data i
      wr d index (a + s)) (s := d0) (fun _ d => d.length = dest.length ∧ Cells P d) ⟨h2, h3⟩ (by
      rintro i hi d ⟨e1, e2⟩
      have hi' : i < p.data.length := hi
      have hr : (digits p.card i).getD v 0 < p.card[v] := by
        rw [List.getD_eq_getElem _ _ (show v < (digits p.card i).length by simpa using hv)]
        exact List.Forall₂.get (digits_inRange hp.2 i) (by simpa using hv) hv
      have hpi : partialIndex p.card p.size i v = ok ((digits p.card i).getD v 0) := by
        rw [hp.size, partialIndex_eq hp.2 (by rw [← hp.1]; exact hi') hv,
          List.getD_eq_getElem _ _ (show v < (digits p.card i).length by simpa using hv)]
      rw [hpi, ok_bind, rd_lt (by omega), ok_bind, rd_lt hi', ok_bind, wr_lt (by omega)]
      exact ⟨_, rfl, by simpa using e1, e2.set _ (hP.add _ _ (e2 _ (List.getElem_mem _)) (hc _ (List.getElem_mem _)))⟩)
  rw [k1, ok_bind]
  exact ⟨_, rfl, k2, k3⟩

/-- the sum as the code forms it, one after the other from the left -/
def leftSum (d : List K) : K := d.foldl (· + ·) 0

theorem loop_leftSum (d : List K) (off n : Nat) (h : off + n ≤ d.length) :
    loop n (fun i (sum : K) => do
      let v ← rd d (off + i)
      ok (sum + v)) 0 = ok (leftSum ((d.drop off).take n)) := by
  induction n with
  | zero => simp [leftSum]
  | succ n ih =>
    rw [loop_succ, ih (by omega), ok_bind', rd_lt (by omega), ok_bind]
    congr 1
    unfold leftSum
    rw [List.take_add_one, List.foldl_append, List.getElem?_drop, List.getElem?_eq_getElem (by omega)]
    rfl

/-- normalisation divides by the sum formed from the left -/
theorem normaliseArray_any {d : List K} {off n : Nat} (h : off + n ≤ d.length) :
    normaliseArray d off n = ok (if leftSum ((d.drop off).take n) = 0 then d else
      d.mapIdx (fun j a => if off ≤ j ∧ j < off + n then a / leftSum ((d.drop off).take n) else a)) := by
  unfold normaliseArray
  rw [loop_leftSum d off n h, ok_bind]
  split
  · rfl
  · refine loop_segment (g := fun a => a / leftSum ((d.drop off).take n)) n h (fun i hi t ht _ => ?_)
    rw [rd_lt ht, ok_bind, wr_lt ht]

theorem leftSum_cells (hP : Closed P) {d : List K} (h : Cells P d) : P (leftSum d) := by
  have key : ∀ (l : List K) (a : K), Cells P l → P a → P (l.foldl (· + ·) a) := by
    intro l
    induction l with
    | nil => intro a _ ha; exact ha
    | cons b l ih => intro a hl ha; exact ih _ (fun c hc => hl c (List.mem_cons_of_mem _ hc)) (hP.add _ _ ha (hl b (List.mem_cons_self ..)))
  exact key d 0 h hP.zero

/-- the cells of a normalised array -/
theorem normalise_cells (hP : Closed P) {d : List K} (h : Cells P d) {off n : Nat} (hn : off + n ≤ d.length) :
    ∃ r, normaliseArray d off n = ok r ∧ r.length = d.length ∧ Cells P r := by
  rw [normaliseArray_any hn]
  refine ⟨_, rfl, ?_, ?_⟩
  · split <;> simp
  · split
    · exact h
    · rename_i h0
      intro a ha
      obtain ⟨j, hj, rfl⟩ := List.mem_iff_getElem.mp ha
      simp only [List.getElem_mapIdx]
      split
      · exact hP.div _ _ (h _ (List.getElem_mem _)) (leftSum_cells hP (fun b hb => h b (List.mem_of_mem_drop (List.mem_of_mem_take hb)))) h0
      · exact h _ (List.getElem_mem _)

theorem updCell_any (hP : Closed P) {num den : Option (Potential K)} (hn : ∀ n, num = some n → Cells P n.data) (hd : ∀ d, den = some d → Cells P d.data)
    (mapping x : List Nat) {a : K} (ha : P a) : P (updCell num den mapping x a) := by
  unfold updCell
  cases num with
  | none =>
    cases den with
    | none => exact ha
    | some d =>
      simp only
      split
      · exact hP.zero
      · rename_i h0
        exact hP.div _ _ ha ((hd d rfl).at' hP.zero _) h0
  | some n =>
    cases den with
    | none => exact hP.mul _ _ ha ((hn n rfl).at' hP.zero _)
    | some d =>
      simp only
      split
      · exact hP.zero
      · rename_i h0
        exact hP.div _ _ (hP.mul _ _ ha ((hn n rfl).at' hP.zero _)) ((hd d rfl).at' hP.zero _) h0

theorem evCell_any (hP : Closed P) {num : List K} {den : Option (List K)} (hn : Cells P num) (hd : ∀ d, den = some d → Cells P d) (v : Nat) (x : List Nat) {a : K}
    (ha : P a) : P (evCell num den v x a) := by
  unfold evCell
  cases den with
  | none => exact hP.mul _ _ ha (hn.getD hP.zero _)
  | some d =>
    simp only
    split
    · exact hP.mul _ _ ha (hn.getD hP.zero _)
    · rename_i h0
      exact hP.div _ _ (hP.mul _ _ ha (hn.getD hP.zero _)) ((hd d rfl).getD hP.zero _) h0

end Potential

/-! ### trees -/

namespace JTree

variable {card : Nat → Nat}

/-- all tables of a tree have the right shape and their cells are in the set -/
structure Safe (P : K → Prop) (card : Nat → Nat) (t : JTree K) : Prop where
  typed : Typed card t
  clq : ∀ (c : Nat) cl, t.cliques[c]? = some cl → Cells P cl.p.data ∧ Cells P cl.orig.data
  sep : ∀ (s : Nat) sp, t.sepsets[s]? = some sp → Cells P sp.old.data ∧ Cells P sp.new.data

theorem Safe.of_bare {t t' : JTree K} (h : Safe P card t) (hb : t'.bare = t.bare) : Safe P card t' := by
  refine ⟨h.typed.of_bare hb, ?_, ?_⟩
  · intro c cl hc
    have h1 : t'.bare.cliques[c]? = some { cl with mark := false } := by unfold JTree.bare; simp [hc]
    rw [hb] at h1
    unfold JTree.bare at h1
    simp only [List.getElem?_map, Option.map_eq_some_iff] at h1
    obtain ⟨cl', h2, h3⟩ := h1
    have := h.clq c cl' h2
    have e4 := congrArg Clique.p h3
    have e5 := congrArg Clique.orig h3
    simp only at e4 e5
    rw [← e4, ← e5]; exact this
  · have hs : t'.sepsets = t.sepsets := by
      have := congrArg JTree.sepsets hb
      exact this
    rw [hs]; exact h.sep

/-- a clique table replaced -/
theorem Safe.set_clique {t : JTree K} (h : Safe P card t) {c : Nat} {cl : Clique K} (hcl : t.cliques[c]? = some cl) {q : Potential K}
    (hq : TableOn card cl.vars q) (hc : Cells P q.data) : Safe P card { t with cliques := t.cliques.set c { cl with p := q } } := by
  have hsk : ({ t with cliques := t.cliques.set c { cl with p := q } } : JTree K).skel = t.skel := set_skel (cl' := { cl with p := q }) hcl rfl rfl
  refine ⟨⟨?_, ?_⟩, ?_, h.sep⟩
  · intro d dl hd
    simp only [List.getElem?_set] at hd
    split at hd
    · rename_i e; subst e
      split at hd
      · simp only [Option.some.injEq] at hd
        rw [← hd]
        obtain ⟨n1, n2, n3⟩ := h.typed.clq c cl hcl
        exact ⟨n1, hq, n3⟩
      · cases hd
    · exact h.typed.clq d dl hd
  · intro s sp hs
    rw [skel_vars hsk, skel_vars hsk]
    exact h.typed.sep s sp hs
  · intro d dl hd
    simp only [List.getElem?_set] at hd
    split at hd
    · rename_i e; subst e
      split at hd
      · simp only [Option.some.injEq] at hd
        rw [← hd]
        exact ⟨hc, (h.clq c cl hcl).2⟩
      · cases hd
    · exact h.clq d dl hd

theorem set_marks {t : JTree K} {c : Nat} {cl : Clique K} (hcl : t.cliques[c]? = some cl) (q : Potential K) (x : Nat) :
    ({ t with cliques := t.cliques.set c { cl with p := q } } : JTree K).markOf x = t.markOf x := by
  unfold markOf
  simp only [List.getElem?_set]
  by_cases e : c = x
  · subst e; rw [hcl]
    simp [(List.getElem?_eq_some_iff.mp hcl).1]
  · simp [e]

theorem messagePass_any (hP : Closed P) {t : JTree K} (ht : Safe P card t) {a s b : Nat} (hj : Joins t s a b) (ha : a < t.cliques.length)
    (hb : b < t.cliques.length) :
    ∃ t', t.messagePass a s b = ok (0, t') ∧ t'.skel = t.skel ∧ (∀ x, t'.markOf x = t.markOf x) ∧ Safe P card t' := by
  obtain ⟨sp, hsp, hends⟩ := joins_sep hj
  obtain ⟨hn, ho, hw, hs1, hs2⟩ := ht.typed.sep s sp hsp
  obtain ⟨co, cw⟩ := ht.sep s sp hsp
  have hsl : s < t.sepsets.length := (List.getElem?_eq_some_iff.mp hsp).1
  obtain ⟨ca, hca⟩ : ∃ ca, t.cliques[a]? = some ca := ⟨_, List.getElem?_eq_getElem ha⟩
  obtain ⟨cb, hcb⟩ : ∃ cb, t.cliques[b]? = some cb := ⟨_, List.getElem?_eq_getElem hb⟩
  obtain ⟨na, pa, oa⟩ := ht.typed.clq a ca hca
  obtain ⟨nb, pb, ob⟩ := ht.typed.clq b cb hcb
  have hsa : sp.vars ⊆ ca.vars := by
    rw [← varsOf_eq hca]
    rcases hends with ⟨e1, e2⟩ | ⟨e1, e2⟩
    · rw [← e1]; exact hs1
    · rw [← e2]; exact hs2
  have hsb : sp.vars ⊆ cb.vars := by
    rw [← varsOf_eq hcb]
    rcases hends with ⟨e1, e2⟩ | ⟨e1, e2⟩
    · rw [← e2]; exact hs2
    · rw [← e1]; exact hs1
  obtain ⟨oa', ma, mga⟩ := mapper_places hn hsa
  obtain ⟨ob', mb, mgb⟩ := mapper_places hn hsb
  have hia : Into ca.p.card (places ca.vars sp.vars) sp.old.card := by
    rw [pa.card_eq, ho.card_eq]; exact places_into hsa
  have hibn : Into cb.p.card (places cb.vars sp.vars) sp.new.card := by
    rw [pb.card_eq, hw.card_eq]; exact places_into hsb
  have hlena : sp.vars.length ≤ ca.vars.length := (hn.subperm hsa).length_le
  have hlenb : sp.vars.length ≤ cb.vars.length := (hn.subperm hsb).length_le
  obtain ⟨nw, hmarg, g1, g2, g3⟩ := Potential.general_any hP pa.wf ho.wf hia (by rw [pa.card_eq, ho.card_eq]; simpa using hlena) (ht.clq a ca hca).1
  have hnwon : TableOn card sp.vars nw := ⟨g1, by rw [g2]; exact ho.card_eq⟩
  have hibw : Into cb.p.card (places cb.vars sp.vars) nw.card := by
    rw [pb.card_eq, hnwon.card_eq]; exact places_into hsb
  obtain ⟨q, hq⟩ : ∃ q, q = Potential.ofFn cb.p.card (fun x => Potential.updCell (some nw) (some sp.new) (places cb.vars sp.vars) x (cb.p.at' x)) :=
    ⟨_, rfl⟩
  have hupd : Potential.update (some nw) (some sp.new) cb.p (places cb.vars sp.vars) = ok (0, q) := by
    rw [hq]
    refine Potential.update_ofFn pb.wf (Or.inl (by simp)) ?_ ?_ ?_
    · rintro _ ⟨rfl⟩; exact ⟨hnwon.wf, hibw⟩
    · rintro _ ⟨rfl⟩; exact ⟨hw.wf, hibn⟩
    · intro _ _; rw [pb.card_eq]; simpa [places] using hlenb
  have hqon : TableOn card cb.vars q := by rw [hq, pb.card_eq]; exact ofFn_on pb.pos _
  have hqc : Cells P q.data := by
    rw [hq]
    exact cells_ofFn fun x => Potential.updCell_any hP (by rintro _ ⟨rfl⟩; exact g3) (by rintro _ ⟨rfl⟩; exact cw) _ _ ((ht.clq b cb hcb).1.at' hP.zero x)
  obtain ⟨t1, ht1⟩ : ∃ t1 : JTree K, t1 = JTree.mk t.cliques
      (t.sepsets.set s { vars := sp.vars, old := sp.new, new := nw, first := sp.first, second := sp.second }) := ⟨_, rfl⟩
  have hsk1 : t1.skel = t.skel := by
    rw [ht1]
    unfold skel
    simp only
    rw [set_sep_skel (sp' := { vars := sp.vars, old := sp.new, new := nw, first := sp.first, second := sp.second }) hsp rfl]
  have hsafe1 : Safe P card t1 := by
    refine ⟨⟨by rw [ht1]; exact ht.typed.clq, ?_⟩, by rw [ht1]; exact ht.clq, ?_⟩
    · intro r rp hr
      rw [skel_vars hsk1, skel_vars hsk1]
      rw [ht1] at hr
      simp only at hr
      rw [List.getElem?_set] at hr
      by_cases e : s = r
      · subst e
        rw [if_pos rfl, if_pos hsl, Option.some.injEq] at hr
        rw [← hr]
        exact ⟨hn, hw, hnwon, hs1, hs2⟩
      · rw [if_neg e] at hr
        exact ht.typed.sep r rp hr
    · intro r rp hr
      rw [ht1] at hr
      simp only at hr
      rw [List.getElem?_set] at hr
      by_cases e : s = r
      · subst e
        rw [if_pos rfl, if_pos hsl, Option.some.injEq] at hr
        rw [← hr]
        exact ⟨cw, g3⟩
      · rw [if_neg e] at hr
        exact ht.sep r rp hr
  have hcb1 : t1.cliques[b]? = some cb := by rw [ht1]; exact hcb
  refine ⟨{ t1 with cliques := t1.cliques.set b { cb with p := q } }, ?_, ?_, ?_, hsafe1.set_clique hcb1 hqon hqc⟩
  · unfold messagePass
    rw [rd_eq_ok.mpr hsp, ok_bind, rd_eq_ok.mpr hca, ok_bind]
    simp only [ma, ok_bind, mga, hmarg, wr_lt hsl, ne_eq, not_true, if_false, rd_eq_ok.mpr hcb, mb, mgb, hupd, wr_lt hb, ht1]
  · rw [← hsk1]; exact set_skel (cl' := { cb with p := q }) hcb1 rfl rfl
  · intro x
    rw [set_marks hcb1 q x, ht1]; rfl

theorem collect_any (hP : Closed P) (fuel : Nat) : ∀ (t : JTree K) (par : Option (Nat × Nat)) (c : Nat) (F : Forest), Safe P card t →
    Sub t (par.map (·.2)) c F → F.nodes.length < fuel → (∀ x ∈ c :: F.nodes, t.markOf x = false) →
    (∀ p s, par = some (p, s) → Joins t s p c ∧ t.markOf p = true) →
    ∃ t', collect fuel t (par.map (·.1)) (par.map (·.2)) c = ok (0, t') ∧ t'.skel = t.skel ∧ Safe P card t' ∧
      (∀ x, t'.markOf x = (t.markOf x || decide (x ∈ c :: F.nodes))) := by
  induction fuel with
  | zero => intro t par c F _ _ h; omega
  | succ fuel ih =>
    intro t par c F hty hsub hfuel hmark hpar
    have hc := hsub.lt c (List.mem_cons_self ..)
    obtain ⟨t1, m1, m2, m3, _⟩ := setMark_eq t c true hc
    rw [collect_succ fuel t _ _ c hc m1]
    obtain ⟨⟨e, u⟩, r1, r2⟩ := fold_adj (collStep fuel c) (par.map (·.2))
      (fun G (st : Nat × JTree K) => st.1 = 0 ∧ st.2.skel = t.skel ∧ Safe P card st.2 ∧ ∃ done, Visit t c F G st.2 done)
      (by
        rintro G ⟨e, u⟩ s hs ⟨h0, hsk, hu, done, hv⟩
        simp only at h0; subst h0
        obtain ⟨⟨p, s'⟩, hp1, hp2⟩ := Option.map_eq_some_iff.mp hs
        simp only at hp2; subst hp2
        obtain ⟨hj, hp⟩ := hpar p s' hp1
        exact collStep_skip (hj.shape hv.shape) (by rw [hv.mark, hp]; rfl) (by rw [hv.mark]; simp))
      (by
        rintro s d k r ⟨e, u⟩ ⟨h0, hsk, hu, done, hv⟩
        simp only at h0 hsk hu hv; subst h0
        obtain ⟨f1, f2, f3, f4, f5, f6, f7, _⟩ := hv.facts hsub hmark
        obtain ⟨t', a1, a2, a3, a4⟩ := ih u (some (c, s)) d k hu f4 (by omega) f3
          (by rintro _ _ ⟨rfl, rfl⟩; exact ⟨f1, f2⟩)
        exact ⟨(0, t'), collStep_visit f1 f2 (f3 d (List.mem_cons_self ..)) f6 a1 (by rw [a4, f2]; rfl) (by rw [a4]; simp), rfl,
          a2.trans hsk, a3, done ++ (d :: k.nodes), hv.step (skel_shape a2) a4⟩)
      (t.adj c) F (0, t1) hsub.tops
      ⟨rfl, skel_of_bare m2, hty.of_bare m2, [], Visit.start hsub (shape_of_bare m2) m3⟩
    rw [r1]
    obtain ⟨h0, hsk, hu, done, hv⟩ := r2
    simp only at h0 hsk hu hv; subst h0
    simp only [ok_bind', ne_eq, not_true, if_false]
    cases hp : par with
    | none => exact ⟨u, rfl, hsk, hu, hv.finish⟩
    | some ps =>
      obtain ⟨p, s⟩ := ps
      obtain ⟨hj, hpm⟩ := hpar p s hp
      have hpl : p < u.cliques.length := by rw [skel_len hsk]; exact mark_lt hpm
      obtain ⟨t', b1, b2, b3, b4⟩ := messagePass_any hP hu (hj.symm.shape hv.shape) (by rw [skel_len hsk]; exact hc) hpl
      exact ⟨t', b1, b2.trans hsk, b4, fun x => by rw [b3]; exact hv.finish x⟩

theorem distribute_any (hP : Closed P) (fuel : Nat) : ∀ (t : JTree K) (ps : Option Nat) (c : Nat) (F : Forest), Safe P card t →
    Sub t ps c F → F.nodes.length < fuel → (∀ x ∈ c :: F.nodes, t.markOf x = false) →
    (∀ s, ps = some s → ∃ p, Joins t s p c ∧ t.markOf p = true) →
    ∃ t', distribute fuel t c = ok (0, t') ∧ t'.skel = t.skel ∧ Safe P card t' ∧
      (∀ x, t'.markOf x = (t.markOf x || decide (x ∈ c :: F.nodes))) := by
  induction fuel with
  | zero => intro t ps c F _ _ h; omega
  | succ fuel ih =>
    intro t ps c F hty hsub hfuel hmark hps
    have hc := hsub.lt c (List.mem_cons_self ..)
    obtain ⟨t1, m1, m2, m3, _⟩ := setMark_eq t c true hc
    rw [distribute_succ fuel t c hc m1]
    obtain ⟨⟨e, u⟩, r1, r2⟩ := fold_adj (distStep1 c) ps
      (fun G (st : Nat × JTree K) => st.1 = 0 ∧ st.2.skel = t.skel ∧ Safe P card st.2 ∧ Visit t c F F st.2 [] ∧
        ∃ done, Rep t c G ∧ F.nodes = done ++ G.nodes)
      (by
        rintro G ⟨e, u⟩ s hs ⟨h0, hsk, hu, hv, _⟩
        simp only at h0 hv; subst h0
        obtain ⟨p, hj, hp⟩ := hps s hs
        unfold distStep1
        simp only [ne_eq, not_true, if_false]
        rw [next_none (hj.shape hv.shape) (by rw [hv.mark, hp]; rfl) (by rw [hv.mark]; simp)]
        rfl)
      (by
        rintro s d k r ⟨e, u⟩ ⟨h0, hsk, hu, hv, done, hrep, hdone⟩
        simp only at h0 hsk hu hv; subst h0
        have hd : d ∈ F.nodes := by rw [hdone]; simp [Forest.nodes]
        have hcd : d ≠ c := fun e => (List.nodup_cons.mp hsub.nodup).1 (e ▸ hd)
        have hj := hrep.1.shape hv.shape
        have hdl : d < u.cliques.length := by rw [skel_len hsk]; exact hsub.lt d (List.mem_cons_of_mem _ hd)
        have hcm : u.markOf c = true := by rw [hv.mark]; simp
        have hdm : u.markOf d = false := by
          rw [hv.mark, hmark d (List.mem_cons_of_mem _ hd)]; simp [hcd]
        obtain ⟨t', b1, b2, b3, b4⟩ := messagePass_any hP hu hj (mark_lt hcm) hdl
        refine ⟨(0, t'), ?_, rfl, b2.trans hsk, b4, ?_, done ++ (d :: k.nodes), hrep.2.2.2, by rw [hdone]; simp [Forest.nodes]⟩
        · unfold distStep1
          simp only [ne_eq, not_true, if_false]
          rw [next_some hj hcm hdm hdl]
          exact b1
        · exact ⟨hv.shape.trans (skel_shape b2), hv.rep, hv.split, fun x => by rw [b3]; exact hv.mark x⟩)
      (t.adj c) F (0, t1) hsub.tops
      ⟨rfl, skel_of_bare m2, hty.of_bare m2, Visit.start hsub (shape_of_bare m2) m3, [], hsub.rep, by simp⟩
    rw [r1]
    obtain ⟨h0, hsk1, hu1, hv1, _⟩ := r2
    simp only at h0 hsk1 hu1 hv1; subst h0
    simp only [ok_bind']
    obtain ⟨⟨e, w⟩, q1, q2⟩ := fold_adj (distStep2 fuel) ps
      (fun G (st : Nat × JTree K) => st.1 = 0 ∧ st.2.skel = t.skel ∧ Safe P card st.2 ∧ ∃ done, Visit t c F G st.2 done)
      (by
        rintro G ⟨e, w⟩ s hs ⟨h0, hsk, hu, done, hv⟩
        simp only at h0 hv; subst h0
        obtain ⟨p, hj, hp⟩ := hps s hs
        unfold distStep2
        simp only [ne_eq, not_true, if_false]
        rw [next_none (hj.shape hv.shape) (by rw [hv.mark, hp]; rfl) (by rw [hv.mark]; simp)]
        rfl)
      (by
        rintro s d k r ⟨e, w⟩ ⟨h0, hsk, hu, done, hv⟩
        simp only at h0 hsk hu hv; subst h0
        obtain ⟨f1, f2, f3, f4, f5, f6, f7, _⟩ := hv.facts hsub hmark
        obtain ⟨t', a1, a2, a3, a4⟩ := ih w (some s) d k hu f4 (by omega) f3
          (by rintro _ ⟨rfl⟩; exact ⟨c, f1, f2⟩)
        refine ⟨(0, t'), ?_, rfl, a2.trans hsk, a3, done ++ (d :: k.nodes), hv.step (skel_shape a2) a4⟩
        unfold distStep2
        simp only [ne_eq, not_true, if_false]
        rw [next_some f1 f2 (f3 d (List.mem_cons_self ..)) f6]
        exact a1)
      (t.adj c) F (0, u) hsub.tops
      ⟨rfl, hsk1, hu1, [], hv1⟩
    obtain ⟨h0, hsk, hu, done, hv⟩ := q2
    simp only at h0 hsk hu hv; subst h0
    exact ⟨w, q1, hsk, hu, hv.finish⟩

theorem Rooted.fuel {t : JTree K} {F : Forest} (hF : t.Rooted 0 F) : F.nodes.length < t.cliques.length + 1 := by
  have h1 : (0 :: F.nodes).toFinset = Finset.range t.cliques.length := by
    ext x; rw [List.mem_toFinset, Finset.mem_range]; exact hF.nodes x
  have h2 := congrArg Finset.card h1
  rw [List.toFinset_card_of_nodup hF.dist.nodes, Finset.card_range, List.length_cons] at h2
  omega

theorem rounds_any (hP : Closed P) {t : JTree K} {L : List (Nat × Nat)} (hg : t.Good card L) (ht : Safe P card t) :
    ∃ t1 t2, t.bare.collect (t.cliques.length + 1) none none 0 = ok (0, t1) ∧ t1.bare.distribute (t1.cliques.length + 1) 0 = ok (0, t2) ∧
      t2.skel = t.skel ∧ Safe P card t2 := by
  have h0 : 0 < t.cliques.length := by have := hg.len; omega
  obtain ⟨F, hF⟩ := hg.rooted ht.typed h0
  obtain ⟨t1, c1, c2, c3, c4⟩ := collect_any hP (t.cliques.length + 1) t.bare none 0 F (ht.of_bare (bare_bare t)) (hF.sub.shape (bare_shape t)) hF.fuel
    (fun x _ => bare_mark t x) (by intro p s h; cases h)
  have hsk1 : t1.skel = t.skel := c2.trans (bare_skel t)
  obtain ⟨t2, d1, d2, d3, d4⟩ := distribute_any hP (t1.cliques.length + 1) t1.bare none 0 F (c3.of_bare (bare_bare t1))
    (hF.sub.shape ((skel_shape hsk1).trans (bare_shape t1))) (by rw [skel_len hsk1]; exact hF.fuel) (fun x _ => bare_mark t1 x) (by intro s h; cases h)
  exact ⟨t1, t2, c1, d1, d2.trans ((bare_skel t1).trans hsk1), d3⟩

theorem retracted_safe (hP : Closed P) {t : JTree K} (h : Safe P card t) : Safe P card (t.retracted card) := by
  refine ⟨Model.retracted_typed h.typed, ?_, ?_⟩
  · intro c cl hc
    unfold retracted at hc
    simp only [List.getElem?_map, Option.map_eq_some_iff] at hc
    obtain ⟨cl', h1, rfl⟩ := hc
    exact ⟨(h.clq c cl' h1).2, (h.clq c cl' h1).2⟩
  · intro s sp hs
    unfold retracted at hs
    simp only [List.getElem?_map, Option.map_eq_some_iff] at hs
    obtain ⟨sp', h1, rfl⟩ := hs
    exact ⟨Cells.replicate hP.one, Cells.replicate hP.one⟩

theorem mass_any {t : JTree K} {L : List (Nat × Nat)} (hg : t.Good card L) (ht : Typed card t) :
    ∃ k t', t.probabilityMass = ok (k, t') ∧ t'.bare = t.bare := by
  have h0 : 0 < t.cliques.length := by have := hg.len; omega
  obtain ⟨F, hF⟩ := hg.rooted ht h0
  have hloop : ∀ xs : List K, ∃ k, loop xs.length (fun i m => do let a ← rd xs i; ok (m + a)) (0 : K) = ok k := by
    intro xs
    obtain ⟨k, h, _⟩ := loop_inv (n := xs.length) (f := fun i m => do let a ← rd xs i; ok (m + a)) (s := (0 : K)) (fun _ _ => True) trivial (by
      intro i hi m _
      rw [rd_lt hi, ok_bind]
      exact ⟨_, rfl, trivial⟩)
    exact ⟨k, h⟩
  obtain ⟨t', a', h1, h2, h3, h4⟩ := dfs_spec cliqueMass negSepsetMass (fun _ st => st.1.bare = t.bare)
    (by
      rintro done w w' a i1 hb
      exact hb.trans i1)
    (by
      rintro done w a c i1 hc
      obtain ⟨k, hk⟩ := hloop (w.cliques[c]).p.data
      refine ⟨w, a + k, ?_, i1, SameShape.rfl' w, fun x => rfl⟩
      unfold cliqueMass
      rw [rd_lt hc, ok_bind]
      unfold Potential.size
      rw [hk, ok_bind])
    (by
      rintro done w a s p q i1 hj
      obtain ⟨sp, hsp, _⟩ := joins_sep hj
      obtain ⟨k, hk⟩ := hloop sp.new.data
      refine ⟨w, a - k, ?_, i1, SameShape.rfl' w, fun x => rfl⟩
      unfold negSepsetMass
      rw [rd_eq_ok.mpr hsp, ok_bind]
      unfold Potential.size
      rw [hk, ok_bind])
    (t.bare.cliques.length + 1) t.bare 0 none 0 F [] (bare_bare t) (hF.sub.shape (bare_shape t)) (by rw [(bare_shape t).len]; exact hF.fuel)
      (fun x _ => bare_mark t x) (by intro s h; cases h)
  refine ⟨a', t', ?_, h3⟩
  unfold probabilityMass
  rw [unmarkAll_eq, ok_bind, h1, ok_bind]

end JTree
end Nip
