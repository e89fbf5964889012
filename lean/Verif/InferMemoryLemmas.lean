import Verif.InferMemory
import Verif.Spec.InferMemory
import Verif.AnyNumbers
import Verif.JointLemmas
import Verif.History

/-! # Inference when memory runs out: lemmas -/

namespace Nip

open Res Spec

set_option linter.unusedSectionVars false

theorem mapperIn_cases (fails : Nat → Bool) (w : Loans) {set subset : List Nat} {e : Nat} {o : Option (List Nat)} (hle : subset.length ≤ set.length)
    (h : mapper set subset = ok (e, o)) :
    (subset = [] ∧ o = none ∧ mapperIn fails w set subset = ok (none, w)) ∨
    (subset ≠ [] ∧ fails w.tried = false ∧ (∃ l, o = some l) ∧ mapperIn fails w set subset = ok (o, ⟨w.tried + 1, w.held + 1⟩)) ∨
    (subset ≠ [] ∧ fails w.tried = true ∧ mapperIn fails w set subset = ok (none, ⟨w.tried + 1, w.held⟩)) := by
  unfold mapper at h
  unfold mapperIn
  by_cases h0 : subset.length < 1
  · rw [if_pos h0] at h
    rw [if_pos h0]
    simp only [ok.injEq, Prod.mk.injEq] at h
    exact Or.inl ⟨List.eq_nil_of_length_eq_zero (by omega), h.2.symm, rfl⟩
  · have hne : subset ≠ [] := by rintro rfl; simp at h0
    rw [if_neg h0, if_neg (by omega)] at h
    rw [if_neg h0, if_neg (by omega)]
    unfold Loans.calloc
    cases hf : fails w.tried with
    | true => exact Or.inr (Or.inr ⟨hne, rfl, by simp⟩)
    | false =>
      refine Or.inr (Or.inl ⟨hne, rfl, ?_⟩)
      cases hl : loop subset.length (mapperStep set subset) (List.replicate subset.length 0) with
      | ub => rw [hl, ub_bind] at h; exact absurd h (ub_ne_ok _)
      | ok l =>
        rw [hl, ok_bind] at h
        simp only [ok.injEq, Prod.mk.injEq] at h
        exact ⟨⟨l, h.2.symm⟩, by simp [← h.2]⟩

theorem loop_always_ub {σ : Type} {f : Nat → σ → Res σ} (hf : ∀ i s, f i s = ub) {n : Nat} (hn : 0 < n) (s : σ) : loop n f s = ub := by
  obtain ⟨n, rfl⟩ : ∃ k, n = k + 1 := ⟨n - 1, by omega⟩
  rw [loop_succ]
  cases loop n f s with
  | ub => rfl
  | ok s' => exact hf n s'

variable {K : Type} [Zero K] [One K] [Add K] [_root_.Sub K] [Mul K] [Div K] [LinearOrder K] {card : Nat → Nat}

theorem table_pos {vs : List Nat} {p : Potential K} (h : TableOn card vs p) : 0 < p.size := by
  rw [h.wf.size]
  exact Nat.pos_of_ne_zero (fun h0 => by
    have := List.prod_eq_zero_iff.mp h0
    exact absurd (h.wf.2 0 this) (by omega))

theorem general_null {p q : Potential K} (hp : 0 < p.size) (hq : q.dim ≠ 0) (hd : q.dim ≤ p.dim) : Potential.generalMarginalise p q [] = ub := by
  unfold Potential.generalMarginalise
  rw [if_neg (by omega), if_neg hq]
  rw [loop_always_ub _ hp, ub_bind]
  intro i d
  cases p.indicesOf i with
  | ub => rfl
  | ok idx => rw [ok_bind, choose_short (by simp only [List.length_nil]; omega), ub_bind]

theorem update_null {n d p : Potential K} (hp : 0 < p.size) (hn : n.dim ≠ 0) (hd : d.dim = n.dim) (hle : n.dim ≤ p.dim) :
    Potential.update (some n) (some d) p [] = ub := by
  unfold Potential.update
  have hb : (n.dim != d.dim || decide (n.dim > p.dim)) = false := by
    rw [hd]; simp; omega
  simp only [hb, Bool.false_eq_true, if_false, if_neg hn]
  rw [loop_always_ub _ hp, ub_bind]
  intro i t
  cases p.indicesOf i with
  | ub => rfl
  | ok idx => rw [ok_bind, choose_short (by simp only [List.length_nil]; omega), ub_bind]

/-- requests made by a message through a separator with these variables -/
def asks (vs : List Nat) : Nat := if vs = [] then 0 else 2

namespace JTree

abbrev Any (card : Nat → Nat) (t : JTree K) : Prop := Safe (fun _ : K => True) card t

theorem closed_all : Closed (fun _ : K => True) := ⟨trivial, trivial, fun _ _ _ _ => trivial, fun _ _ _ _ => trivial, fun _ _ _ _ _ => trivial⟩

theorem any_of_typed {t : JTree K} (h : Typed card t) : Any card t := ⟨h, fun _ _ _ => ⟨fun _ _ => trivial, fun _ _ => trivial⟩, fun _ _ _ => ⟨fun _ _ => trivial, fun _ _ => trivial⟩⟩

/-- the two outcomes of a step that makes `n` requests -/
def Outcome (fails : Nat → Bool) (w : Loans) (n : Nat) (run : Res ((Nat × JTree K) × Loans)) (good : JTree K → Prop) : Prop :=
  (∃ t', run = ok ((0, t'), ⟨w.tried + n, w.held⟩) ∧ good t' ∧ Granted fails w.tried (w.tried + n)) ∨
  (run = ub ∧ Refused fails w.tried (w.tried + n))

theorem messagePassIn_any (fails : Nat → Bool) (w : Loans) {t : JTree K} (ht : Any card t) {a s b : Nat} (hj : Joins t s a b) (ha : a < t.cliques.length)
    (hb : b < t.cliques.length) :
    Outcome fails w (asks (t.sepVars s)) (t.messagePassIn fails w a s b) (fun t' => t.messagePass a s b = ok (0, t') ∧ t'.skel = t.skel ∧
      (∀ x, t'.markOf x = t.markOf x) ∧ Any card t') := by
  obtain ⟨t', hp, hp2, hp3, hp4⟩ := messagePass_any closed_all ht hj ha hb
  obtain ⟨sp, hsp, hends⟩ := joins_sep hj
  obtain ⟨hn, ho, hw, hs1, hs2⟩ := ht.typed.sep s sp hsp
  have hsl : s < t.sepsets.length := (List.getElem?_eq_some_iff.mp hsp).1
  obtain ⟨ca, hca⟩ : ∃ ca, t.cliques[a]? = some ca := ⟨_, List.getElem?_eq_getElem ha⟩
  obtain ⟨cb, hcb⟩ : ∃ cb, t.cliques[b]? = some cb := ⟨_, List.getElem?_eq_getElem hb⟩
  obtain ⟨na, pa, oa⟩ := ht.typed.clq a ca hca
  obtain ⟨nb, pb, ob⟩ := ht.typed.clq b cb hcb
  have hsa : sp.vars ⊆ ca.vars := by
    rw [← varsOf_eq hca]
    rcases hends with ⟨e1, e2⟩ | ⟨e1, e2⟩
    · rw [← e1]; exact hs1
    · rw [← e2]; exact hs2
  have hsb : sp.vars ⊆ cb.vars := by
    rw [← varsOf_eq hcb]
    rcases hends with ⟨e1, e2⟩ | ⟨e1, e2⟩
    · rw [← e2]; exact hs2
    · rw [← e1]; exact hs1
  have hlena : sp.vars.length ≤ ca.vars.length := (hn.subperm hsa).length_le
  have hlenb : sp.vars.length ≤ cb.vars.length := (hn.subperm hsb).length_le
  obtain ⟨m1, ma, _⟩ := mapper_places hn hsa
  obtain ⟨m2, mb, _⟩ := mapper_places hn hsb
  have hsv : t.sepVars s = sp.vars := by unfold sepVars; rw [hsp]
  rw [hsv]
  have dold : sp.old.dim = sp.vars.length := by unfold Potential.dim; rw [ho.card_eq]; simp
  have dnew : sp.new.dim = sp.vars.length := by unfold Potential.dim; rw [hw.card_eq]; simp
  have da : ca.p.dim = ca.vars.length := by unfold Potential.dim; rw [pa.card_eq]; simp
  have db : cb.p.dim = cb.vars.length := by unfold Potential.dim; rw [pb.card_eq]; simp
  have hpure := hp
  unfold messagePass at hpure
  rw [rd_eq_ok.mpr hsp, ok_bind, rd_eq_ok.mpr hca, ok_bind] at hpure
  simp only [ma, ok_bind] at hpure
  -- the first mapping
  cases hg : Potential.generalMarginalise ca.p sp.old (m1.getD []) with
  | ub => rw [hg] at hpure; simp at hpure
  | ok r =>
  obtain ⟨e, n⟩ := r
  rw [hg] at hpure
  simp only [ok_bind, wr_lt hsl] at hpure
  have he : e = 0 := by
    by_contra hne
    rw [if_pos hne] at hpure
    simp only [ok.injEq, Prod.mk.injEq] at hpure
    exact hne hpure.1
  subst he
  simp only [ne_eq, not_true, if_false, rd_eq_ok.mpr hcb, ok_bind, mb] at hpure
  have hndim : n.dim = sp.vars.length := by
    have : n.card = sp.old.card := by
      unfold Potential.generalMarginalise at hg
      rw [if_neg (by omega)] at hg
      by_cases h0 : sp.old.dim = 0
      · rw [if_pos h0] at hg
        obtain ⟨x, _, hg⟩ := bind_ok hg
        obtain ⟨y, _, hg⟩ := bind_ok hg
        simp only [ok.injEq, Prod.mk.injEq] at hg
        rw [← hg.2]
      · rw [if_neg h0] at hg
        obtain ⟨y, _, hg⟩ := bind_ok hg
        simp only [ok.injEq, Prod.mk.injEq] at hg
        rw [← hg.2]
    rw [← dold]; unfold Potential.dim; rw [this]
  cases hu : Potential.update (some n) (some sp.new) cb.p (m2.getD []) with
  | ub => rw [hu] at hpure; simp at hpure
  | ok r =>
  obtain ⟨e2, p⟩ := r
  rw [hu] at hpure
  simp only [ok_bind, wr_lt hb, ok.injEq, Prod.mk.injEq] at hpure
  obtain ⟨he2, hpure⟩ := hpure
  subst he2
  have hgood : t.messagePass a s b = ok (0, t') ∧ t'.skel = t.skel ∧ (∀ x, t'.markOf x = t.markOf x) ∧ Any card t' := ⟨hp, hp2, hp3, hp4⟩
  unfold Outcome messagePassIn
  rw [rd_eq_ok.mpr hsp, ok_bind, rd_eq_ok.mpr hca, ok_bind]
  simp only
  rcases mapperIn_cases fails w hlena ma with ⟨v0, v1, v2⟩ | ⟨v0, vf, ⟨l1, v1⟩, v2⟩ | ⟨v0, vf, v2⟩
  · refine Or.inl ⟨t', ?_, hgood, fun i h1 h2 => ?_⟩
    · rw [v2, ok_bind]
      rw [v1] at hg
      simp only [hg, ok_bind, wr_lt hsl, ne_eq, not_true, if_false, rd_eq_ok.mpr hcb, Loans.free]
      rcases mapperIn_cases fails w hlenb mb with ⟨_, u1, u2⟩ | ⟨u0, _⟩ | ⟨u0, _⟩
      · rw [u2, ok_bind]
        rw [u1] at hu
        simp only [hu, ok_bind, wr_lt hb, Loans.free, asks, if_pos v0, Nat.add_zero, hpure]
      · exact absurd v0 u0
      · exact absurd v0 u0
    · simp only [asks, if_pos v0] at h2; omega
  · rw [v2, ok_bind]
    simp only [hg, ok_bind, wr_lt hsl, ne_eq, not_true, if_false, rd_eq_ok.mpr hcb, asks, if_neg v0]
    have hfree : Loans.free ⟨w.tried + 1, w.held + 1⟩ m1 = ⟨w.tried + 1, w.held⟩ := by rw [v1]; rfl
    rw [hfree]
    rcases mapperIn_cases fails ⟨w.tried + 1, w.held⟩ hlenb mb with ⟨u0, _⟩ | ⟨_, uf, ⟨l2, u1⟩, u2⟩ | ⟨_, uf, u2⟩
    · exact absurd u0 v0
    · refine Or.inl ⟨t', ?_, hgood, fun i h1 h2 => ?_⟩
      · rw [u2, ok_bind]
        simp only [hu, ok_bind, wr_lt hb, hpure]
        rw [u1]; rfl
      · simp only at uf
        obtain h | h : i = w.tried ∨ i = w.tried + 1 := by omega
        · rw [h]; exact vf
        · rw [h]; exact uf
    · refine Or.inr ⟨?_, w.tried + 1, by omega, by omega, uf⟩
      rw [u2, ok_bind]
      have : Potential.update (some n) (some sp.new) cb.p [] = ub := by
        refine update_null (table_pos pb) ?_ (by omega) (by omega)
        rw [hndim]; exact fun h => v0 (List.eq_nil_of_length_eq_zero h)
      simp only [Option.getD_none, this, ub_bind]
  · refine Or.inr ⟨?_, w.tried, le_refl _, by simp only [asks, if_neg v0]; omega, vf⟩
    rw [v2, ok_bind]
    have : Potential.generalMarginalise ca.p sp.old [] = ub := by
      refine general_null (table_pos pa) ?_ (by omega)
      rw [dold]; exact fun h => v0 (List.eq_nil_of_length_eq_zero h)
    simp only [Option.getD_none, this, ub_bind]

/-- requests made by the messages through these separators -/
def need (vs : Nat → List Nat) (l : List Nat) : Nat := (l.map (fun s => asks (vs s))).sum

theorem fold_adj_in {τ : Type} (f : τ × Loans → Nat → Res (τ × Loans)) (g : τ → Nat → Res τ) (ps : Option Nat) (B : Prop) (Q : Forest → τ × Loans → Prop)
    (hskip : ∀ G st s, ps = some s → Q G st → f st s = ok st ∧ g st.1 s = ok st.1)
    (hstep : ∀ s c k r st, Q (.cons s c k r) st → (∃ st', f st s = ok st' ∧ g st.1 s = ok st'.1 ∧ Q r st') ∨ (f st s = ub ∧ B)) :
    ∀ (L : List Nat) (F : Forest) (st : τ × Loans), L.filter (fun s => some s ≠ ps) = F.tops → Q F st →
      (∃ st', L.foldlM f st = ok st' ∧ L.foldlM g st.1 = ok st'.1 ∧ Q .nil st') ∨ (L.foldlM f st = ub ∧ B) := by
  intro L
  induction L with
  | nil =>
    intro F st h hq
    cases F with
    | nil => exact Or.inl ⟨st, rfl, rfl, hq⟩
    | cons s c k r => simp [Forest.tops] at h
  | cons x L ih =>
    intro F st h hq
    rw [List.filter_cons] at h
    by_cases hx : some x ≠ ps
    · rw [if_pos (by simpa using hx)] at h
      cases F with
      | nil => simp [Forest.tops] at h
      | cons s c k r =>
        simp only [Forest.tops, List.cons.injEq] at h
        rcases hstep s c k r st hq with ⟨st1, h1, h1', h2⟩ | ⟨h1, hB⟩
        · rcases ih r st1 h.2 h2 with ⟨st2, h3, h3', h4⟩ | ⟨h3, hB⟩
          · exact Or.inl ⟨st2, by rw [List.foldlM_cons, h.1, h1, ok_bind, h3], by rw [List.foldlM_cons, h.1, h1', ok_bind, h3'], h4⟩
          · exact Or.inr ⟨by rw [List.foldlM_cons, h.1, h1, ok_bind, h3], hB⟩
        · exact Or.inr ⟨by rw [List.foldlM_cons, h.1, h1, ub_bind], hB⟩
    · rw [if_neg (by simpa using hx)] at h
      obtain ⟨k1, k2⟩ := hskip F st x (by simpa using (not_not.mp hx).symm) hq
      rcases ih F st h hq with ⟨st2, h3, h3', h4⟩ | ⟨h3, hB⟩
      · exact Or.inl ⟨st2, by rw [List.foldlM_cons, k1, ok_bind, h3], by rw [List.foldlM_cons, k2, ok_bind, h3'], h4⟩
      · exact Or.inr ⟨by rw [List.foldlM_cons, k1, ok_bind, h3], hB⟩

def collStepIn (fails : Nat → Bool) (fuel c2 : Nat) (st : (Nat × JTree K) × Loans) (s : Nat) : Res ((Nat × JTree K) × Loans) := do
  if st.1.1 ≠ 0 then ok st
  else do
    let sp ← rd st.1.2.sepsets s
    let m1 ← st.1.2.marked sp.first
    let st ← (if !m1 then collectIn fails fuel st.1.2 st.2 (some c2) (some s) sp.first else ok st)
    if st.1.1 ≠ 0 then ok st
    else do
      let m2 ← st.1.2.marked sp.second
      if !m2 then collectIn fails fuel st.1.2 st.2 (some c2) (some s) sp.second else ok st

theorem collectIn_succ (fails : Nat → Bool) (fuel : Nat) (t : JTree K) (w : Loans) (c1 s12 : Option Nat) (c : Nat) (h : c < t.cliques.length) {t1 : JTree K}
    (hm : t.setMark c true = ok t1) :
    collectIn fails (fuel + 1) t w c1 s12 c = ((t.adj c).foldlM (collStepIn fails fuel c) ((0, t1), w)).bind (fun st =>
      if st.1.1 ≠ 0 then ok st
      else match c1, s12 with
        | some c1, some s12 => st.1.2.messagePassIn fails st.2 c s12 c1
        | _, _ => ok st) := by
  have e : t.adj c = t.cliques[c].sepsets := by unfold adj; rw [List.getElem?_eq_getElem h]
  rw [e]
  conv => lhs; unfold collectIn
  rw [rd_lt h, ok_bind, hm, ok_bind]
  rfl

theorem collStepIn_skip {fails : Nat → Bool} {fuel c2 : Nat} {t : JTree K} {w : Loans} {s a b : Nat} (hj : Joins t s a b) (ha : t.markOf a = true) (hb : t.markOf b = true) :
    collStepIn fails fuel c2 ((0, t), w) s = ok ((0, t), w) := by
  obtain ⟨sp, h1, h2⟩ := joins_rd hj
  unfold collStepIn
  have hm1 : t.marked sp.first = ok true := by
    rcases h2 with ⟨e1, e2⟩ | ⟨e1, e2⟩ <;> rw [e1, marked_eq]
    · rw [ha]
    · exact mark_lt ha
    · rw [hb]
    · exact mark_lt hb
  have hm2 : t.marked sp.second = ok true := by
    rcases h2 with ⟨e1, e2⟩ | ⟨e1, e2⟩ <;> rw [e2, marked_eq]
    · rw [hb]
    · exact mark_lt hb
    · rw [ha]
    · exact mark_lt ha
  simp [h1, hm1, hm2]

theorem collStepIn_visit {fails : Nat → Bool} {fuel c : Nat} {t t' : JTree K} {w w' : Loans} {s d : Nat} (hj : Joins t s c d) (hc : t.markOf c = true) (hd : t.markOf d = false)
    (hlt : d < t.cliques.length) (hcol : collectIn fails fuel t w (some c) (some s) d = ok ((0, t'), w')) (hc' : t'.markOf c = true)
    (hd' : t'.markOf d = true) :
    collStepIn fails fuel c ((0, t), w) s = ok ((0, t'), w') := by
  obtain ⟨sp, h1, h2⟩ := joins_rd hj
  unfold collStepIn
  rcases h2 with ⟨e1, e2⟩ | ⟨e1, e2⟩
  · simp [h1, e1, e2, marked_eq t (mark_lt hc), hc, marked_eq t hlt, hd, hcol]
  · simp [h1, e1, e2, marked_eq t hlt, hd, hcol, marked_eq t' (mark_lt hc'), hc']

theorem collStepIn_ub {fails : Nat → Bool} {fuel c : Nat} {t : JTree K} {w : Loans} {s d : Nat} (hj : Joins t s c d) (hc : t.markOf c = true) (hd : t.markOf d = false)
    (hlt : d < t.cliques.length) (hcol : collectIn fails fuel t w (some c) (some s) d = ub) :
    collStepIn fails fuel c ((0, t), w) s = ub := by
  obtain ⟨sp, h1, h2⟩ := joins_rd hj
  unfold collStepIn
  rcases h2 with ⟨e1, e2⟩ | ⟨e1, e2⟩
  · simp [h1, e1, e2, marked_eq t (mark_lt hc), hc, marked_eq t hlt, hd, hcol]
  · simp [h1, e1, e2, marked_eq t hlt, hd, hcol]

/-- requests so far, while subtrees are visited -/
structure SoFar (fails : Nat → Bool) (w0 : Loans) (total rest : Nat) (w : Loans) : Prop where
  held : w.held = w0.held
  tried : w.tried + rest = w0.tried + total
  from0 : w0.tried ≤ w.tried
  granted : Granted fails w0.tried w.tried

theorem SoFar.start (fails : Nat → Bool) (w : Loans) (n : Nat) : SoFar fails w n n w := ⟨rfl, rfl, le_refl _, fun i h1 h2 => by omega⟩

theorem SoFar.step {fails : Nat → Bool} {w0 w : Loans} {n a b : Nat} (h : SoFar fails w0 n (a + b) w) (hg : Granted fails w.tried (w.tried + a)) :
    SoFar fails w0 n b ⟨w.tried + a, w.held⟩ :=
  ⟨h.held, by have := h.tried; simp only; omega, by have := h.from0; simp only; omega, fun i h1 h2 => by
    simp only at h2
    by_cases hi : i < w.tried
    · exact h.granted i h1 hi
    · exact hg i (by omega) h2⟩

theorem SoFar.refused {fails : Nat → Bool} {w0 w : Loans} {n a b : Nat} (h : SoFar fails w0 n (a + b) w) (hr : Refused fails w.tried (w.tried + a)) :
    Refused fails w0.tried (w0.tried + n) := by
  obtain ⟨i, h1, h2, h3⟩ := hr
  exact ⟨i, by have := h.from0; omega, by have := h.tried; omega, h3⟩

theorem SoFar.done {fails : Nat → Bool} {w0 w : Loans} {n : Nat} (h : SoFar fails w0 n 0 w) : w = ⟨w0.tried + n, w0.held⟩ ∧ Granted fails w0.tried (w0.tried + n) := by
  have h1 := h.tried
  have h2 := h.held
  obtain ⟨x, y⟩ := w
  simp only at h1 h2
  have hx : x = w0.tried + n := by omega
  subst h2 hx
  exact ⟨rfl, h.granted⟩

theorem need_cons (vs : Nat → List Nat) (s d : Nat) (k r : Forest) : need vs (Forest.cons s d k r).seps = (need vs k.seps + asks (vs s)) + need vs r.seps := by
  unfold need
  simp [Forest.seps]
  omega

theorem collectIn_any (fails : Nat → Bool) (fuel : Nat) : ∀ (t : JTree K) (w : Loans) (par : Option (Nat × Nat)) (c : Nat) (F : Forest), Any card t →
    Sub t (par.map (·.2)) c F → F.nodes.length < fuel → (∀ x ∈ c :: F.nodes, t.markOf x = false) →
    (∀ p s, par = some (p, s) → Joins t s p c ∧ t.markOf p = true) →
    Outcome fails w (need t.sepVars F.seps + (match par with | some (_, s) => asks (t.sepVars s) | none => 0))
      (collectIn fails fuel t w (par.map (·.1)) (par.map (·.2)) c)
      (fun t' => collect fuel t (par.map (·.1)) (par.map (·.2)) c = ok (0, t') ∧ t'.skel = t.skel ∧ Any card t' ∧
        (∀ x, t'.markOf x = (t.markOf x || decide (x ∈ c :: F.nodes)))) := by
  induction fuel with
  | zero => intro t w par c F _ _ h; omega
  | succ fuel ih =>
    intro t w par c F hty hsub hfuel hmark hpar
    have hc := hsub.lt c (List.mem_cons_self ..)
    obtain ⟨t1, m1, m2, m3, _⟩ := setMark_eq t c true hc
    obtain ⟨last, hlast⟩ : ∃ last, last = (match par with | some (_, s) => asks (t.sepVars s) | none => 0) := ⟨_, rfl⟩
    rw [← hlast, collect_succ fuel t _ _ c hc m1, collectIn_succ fails fuel t w _ _ c hc m1]
    rcases fold_adj_in (collStepIn fails fuel c) (collStep fuel c) (par.map (·.2)) (Refused fails w.tried (w.tried + (need t.sepVars F.seps + last)))
      (fun G (st : (Nat × JTree K) × Loans) => st.1.1 = 0 ∧ st.1.2.skel = t.skel ∧ Any card st.1.2 ∧ (∃ done, Visit t c F G st.1.2 done) ∧
        SoFar fails w (need t.sepVars F.seps + last) (need t.sepVars G.seps + last) st.2)
      (by
        rintro G ⟨⟨e, u⟩, w1⟩ s hs ⟨h0, hsk, hu, ⟨done, hv⟩, hw⟩
        simp only at h0; subst h0
        obtain ⟨⟨p, s'⟩, hp1, hp2⟩ := Option.map_eq_some_iff.mp hs
        simp only at hp2; subst hp2
        obtain ⟨hj, hp⟩ := hpar p s' hp1
        exact ⟨collStepIn_skip (hj.shape hv.shape) (by rw [hv.mark, hp]; rfl) (by rw [hv.mark]; simp),
          collStep_skip (hj.shape hv.shape) (by rw [hv.mark, hp]; rfl) (by rw [hv.mark]; simp)⟩)
      (by
        rintro s d k r ⟨⟨e, u⟩, w1⟩ ⟨h0, hsk, hu, ⟨done, hv⟩, hw⟩
        simp only at h0 hsk hu hv hw; subst h0
        rw [need_cons, Nat.add_assoc] at hw
        obtain ⟨f1, f2, f3, f4, f5, f6, f7, _⟩ := hv.facts hsub hmark
        have hsv : u.sepVars = t.sepVars := funext (skel_sepVars hsk)
        have := ih u w1 (some (c, s)) d k hu f4 (by omega) f3 (by rintro _ _ ⟨rfl, rfl⟩; exact ⟨f1, f2⟩)
        simp only [Option.map_some] at this
        rw [hsv] at this
        rcases this with ⟨t', a0, ⟨a1, a2, a3, a4⟩, a5⟩ | ⟨a0, a1⟩
        · refine Or.inl ⟨((0, t'), _), collStepIn_visit f1 f2 (f3 d (List.mem_cons_self ..)) f6 a0 (by rw [a4, f2]; rfl) (by rw [a4]; simp),
            collStep_visit f1 f2 (f3 d (List.mem_cons_self ..)) f6 a1 (by rw [a4, f2]; rfl) (by rw [a4]; simp), rfl,
            a2.trans hsk, a3, ⟨done ++ (d :: k.nodes), hv.step (skel_shape a2) a4⟩, hw.step a5⟩
        · exact Or.inr ⟨collStepIn_ub f1 f2 (f3 d (List.mem_cons_self ..)) f6 a0, hw.refused a1⟩)
      (t.adj c) F ((0, t1), w) hsub.tops
      ⟨rfl, skel_of_bare m2, hty.of_bare m2, ⟨[], Visit.start hsub (shape_of_bare m2) m3⟩, SoFar.start fails w _⟩ with ⟨⟨⟨e, u⟩, w1⟩, r1, r1', r2⟩ | ⟨r1, hB⟩
    · simp only at r1'
      rw [r1, r1']
      obtain ⟨h0, hsk, hu, ⟨done, hv⟩, hw⟩ := r2
      simp only at h0 hsk hu hv hw; subst h0
      have hz : need t.sepVars (Forest.seps .nil) = 0 := rfl
      rw [hz, Nat.zero_add] at hw
      simp only [ok_bind', ne_eq, not_true, if_false]
      cases hp : par with
      | none =>
        rw [hp] at hlast
        simp only at hlast
        subst hlast
        obtain ⟨d1, d2⟩ := hw.done
        exact Or.inl ⟨u, by rw [d1]; rfl, ⟨rfl, hsk, hu, hv.finish⟩, d2⟩
      | some ps =>
        obtain ⟨p, s⟩ := ps
        obtain ⟨hj, hpm⟩ := hpar p s hp
        have hpl : p < u.cliques.length := by rw [skel_len hsk]; exact mark_lt hpm
        have hsv : u.sepVars = t.sepVars := funext (skel_sepVars hsk)
        rw [hp] at hlast
        simp only at hlast
        have hmsg := messagePassIn_any fails w1 hu (hj.symm.shape hv.shape) (by rw [skel_len hsk]; exact hc) hpl
        rw [hsv, ← hlast] at hmsg
        have hw0 : SoFar fails w (need t.sepVars F.seps + last) (last + 0) w1 := hw
        rcases hmsg with ⟨t', b0, ⟨b1, b2, b3, b4⟩, b5⟩ | ⟨b0, b1⟩
        · obtain ⟨d1, d2⟩ := (hw0.step b5).done
          exact Or.inl ⟨t', by rw [← d1]; exact b0, ⟨b1, b2.trans hsk, b4, fun x => by rw [b3]; exact hv.finish x⟩, d2⟩
        · exact Or.inr ⟨b0, hw0.refused b1⟩
    · exact Or.inr ⟨by rw [r1]; rfl, hB⟩

def distStepIn1 (fails : Nat → Bool) (c : Nat) (st : (Nat × JTree K) × Loans) (s : Nat) : Res ((Nat × JTree K) × Loans) := do
  if st.1.1 ≠ 0 then ok st
  else do
    let n ← st.1.2.next s
    match n with
    | some d => st.1.2.messagePassIn fails st.2 c s d
    | none => ok st

def distStepIn2 (fails : Nat → Bool) (fuel : Nat) (st : (Nat × JTree K) × Loans) (s : Nat) : Res ((Nat × JTree K) × Loans) := do
  if st.1.1 ≠ 0 then ok st
  else do
    let n ← st.1.2.next s
    match n with
    | some d => distributeIn fails fuel st.1.2 st.2 d
    | none => ok st

theorem distributeIn_succ (fails : Nat → Bool) (fuel : Nat) (t : JTree K) (w : Loans) (c : Nat) (h : c < t.cliques.length) {t1 : JTree K} (hm : t.setMark c true = ok t1) :
    distributeIn fails (fuel + 1) t w c =
      ((t.adj c).foldlM (distStepIn1 fails c) ((0, t1), w)).bind (fun st => (t.adj c).foldlM (distStepIn2 fails fuel) st) := by
  have e : t.adj c = t.cliques[c].sepsets := by unfold adj; rw [List.getElem?_eq_getElem h]
  rw [e]
  conv => lhs; unfold distributeIn
  rw [rd_lt h, ok_bind, hm, ok_bind]
  rfl

/-- requests made below the neighbours -/
def needSub (vs : Nat → List Nat) : Forest → Nat
  | .nil => 0
  | .cons _ _ k r => need vs k.seps + needSub vs r

theorem need_split (vs : Nat → List Nat) (F : Forest) : need vs F.seps = need vs F.tops + needSub vs F := by
  induction F with
  | nil => rfl
  | cons s d k r _ ih =>
    rw [need_cons, ih]
    simp only [needSub, Forest.tops]
    unfold need
    simp only [List.map_cons, List.sum_cons]
    omega

theorem distributeIn_any (fails : Nat → Bool) (fuel : Nat) : ∀ (t : JTree K) (w : Loans) (ps : Option Nat) (c : Nat) (F : Forest), Any card t →
    Sub t ps c F → F.nodes.length < fuel → (∀ x ∈ c :: F.nodes, t.markOf x = false) →
    (∀ s, ps = some s → ∃ p, Joins t s p c ∧ t.markOf p = true) →
    Outcome fails w (need t.sepVars F.seps) (distributeIn fails fuel t w c)
      (fun t' => distribute fuel t c = ok (0, t') ∧ t'.skel = t.skel ∧ Any card t' ∧
        (∀ x, t'.markOf x = (t.markOf x || decide (x ∈ c :: F.nodes)))) := by
  induction fuel with
  | zero => intro t w ps c F _ _ h; omega
  | succ fuel ih =>
    intro t w ps c F hty hsub hfuel hmark hps
    have hc := hsub.lt c (List.mem_cons_self ..)
    obtain ⟨t1, m1, m2, m3, _⟩ := setMark_eq t c true hc
    rw [distribute_succ fuel t c hc m1, distributeIn_succ fails fuel t w c hc m1, need_split]
    rcases fold_adj_in (distStepIn1 fails c) (distStep1 c) ps (Refused fails w.tried (w.tried + (need t.sepVars F.tops + needSub t.sepVars F)))
      (fun G (st : (Nat × JTree K) × Loans) => st.1.1 = 0 ∧ st.1.2.skel = t.skel ∧ Any card st.1.2 ∧ Visit t c F F st.1.2 [] ∧
        (∃ done, Rep t c G ∧ F.nodes = done ++ G.nodes) ∧
        SoFar fails w (need t.sepVars F.tops + needSub t.sepVars F) (need t.sepVars G.tops + needSub t.sepVars F) st.2)
      (by
        rintro G ⟨⟨e, u⟩, w1⟩ s hs ⟨h0, hsk, hu, hv, _⟩
        simp only at h0 hv; subst h0
        obtain ⟨p, hj, hp⟩ := hps s hs
        unfold distStepIn1 distStep1
        simp only [ne_eq, not_true, if_false]
        rw [next_none (hj.shape hv.shape) (by rw [hv.mark, hp]; rfl) (by rw [hv.mark]; simp)]
        exact ⟨rfl, rfl⟩)
      (by
        rintro s d k r ⟨⟨e, u⟩, w1⟩ ⟨h0, hsk, hu, hv, ⟨done, hrep, hdone⟩, hw⟩
        simp only at h0 hsk hu hv hw; subst h0
        have hd : d ∈ F.nodes := by rw [hdone]; simp [Forest.nodes]
        have hcd : d ≠ c := fun e => (List.nodup_cons.mp hsub.nodup).1 (e ▸ hd)
        have hj := hrep.1.shape hv.shape
        have hdl : d < u.cliques.length := by rw [skel_len hsk]; exact hsub.lt d (List.mem_cons_of_mem _ hd)
        have hcm : u.markOf c = true := by rw [hv.mark]; simp
        have hdm : u.markOf d = false := by
          rw [hv.mark, hmark d (List.mem_cons_of_mem _ hd)]; simp [hcd]
        have hsv : u.sepVars = t.sepVars := funext (skel_sepVars hsk)
        have hsum : need t.sepVars (Forest.cons s d k r).tops = asks (t.sepVars s) + need t.sepVars r.tops := by
          unfold need; simp [Forest.tops]
        rw [hsum, Nat.add_assoc] at hw
        have hmsg := messagePassIn_any fails w1 hu hj (mark_lt hcm) hdl
        rw [hsv] at hmsg
        unfold distStepIn1 distStep1
        simp only [ne_eq, not_true, if_false]
        rw [next_some hj hcm hdm hdl]
        rcases hmsg with ⟨t', b0, ⟨b1, b2, b3, b4⟩, b5⟩ | ⟨b0, b1⟩
        · exact Or.inl ⟨((0, t'), _), b0, b1, rfl, b2.trans hsk, b4,
            ⟨hv.shape.trans (skel_shape b2), hv.rep, hv.split, fun x => by rw [b3]; exact hv.mark x⟩,
            ⟨done ++ (d :: k.nodes), hrep.2.2.2, by rw [hdone]; simp [Forest.nodes]⟩, hw.step b5⟩
        · exact Or.inr ⟨b0, hw.refused b1⟩)
      (t.adj c) F ((0, t1), w) hsub.tops
      ⟨rfl, skel_of_bare m2, hty.of_bare m2, Visit.start hsub (shape_of_bare m2) m3, ⟨[], hsub.rep, by simp⟩, SoFar.start fails w _⟩
      with ⟨⟨⟨e, u⟩, w1⟩, r1, r1', r2⟩ | ⟨r1, hB⟩
    · simp only at r1'
      rw [r1, r1']
      obtain ⟨h0, hsk1, hu1, hv1, _, hw1⟩ := r2
      simp only at h0 hsk1 hu1 hv1 hw1; subst h0
      have hz : need t.sepVars (Forest.tops .nil) = 0 := rfl
      rw [hz, Nat.zero_add] at hw1
      simp only [ok_bind']
      rcases fold_adj_in (distStepIn2 fails fuel) (distStep2 fuel) ps (Refused fails w.tried (w.tried + (need t.sepVars F.tops + needSub t.sepVars F)))
        (fun G (st : (Nat × JTree K) × Loans) => st.1.1 = 0 ∧ st.1.2.skel = t.skel ∧ Any card st.1.2 ∧ (∃ done, Visit t c F G st.1.2 done) ∧
          SoFar fails w (need t.sepVars F.tops + needSub t.sepVars F) (needSub t.sepVars G) st.2)
        (by
          rintro G ⟨⟨e, u⟩, w2⟩ s hs ⟨h0, hsk, hu, ⟨done, hv⟩, _⟩
          simp only at h0 hv; subst h0
          obtain ⟨p, hj, hp⟩ := hps s hs
          unfold distStepIn2 distStep2
          simp only [ne_eq, not_true, if_false]
          rw [next_none (hj.shape hv.shape) (by rw [hv.mark, hp]; rfl) (by rw [hv.mark]; simp)]
          exact ⟨rfl, rfl⟩)
        (by
          rintro s d k r ⟨⟨e, u⟩, w2⟩ ⟨h0, hsk, hu, ⟨done, hv⟩, hw⟩
          simp only at h0 hsk hu hv hw; subst h0
          obtain ⟨f1, f2, f3, f4, f5, f6, f7, _⟩ := hv.facts hsub hmark
          have hsv : u.sepVars = t.sepVars := funext (skel_sepVars hsk)
          have := ih u w2 (some s) d k hu f4 (by omega) f3 (by rintro _ ⟨rfl⟩; exact ⟨c, f1, f2⟩)
          rw [hsv] at this
          have hw' : SoFar fails w (need t.sepVars F.tops + needSub t.sepVars F) (need t.sepVars k.seps + needSub t.sepVars r) w2 := hw
          unfold distStepIn2 distStep2
          simp only [ne_eq, not_true, if_false]
          rw [next_some f1 f2 (f3 d (List.mem_cons_self ..)) f6]
          rcases this with ⟨t', a0, ⟨a1, a2, a3, a4⟩, a5⟩ | ⟨a0, a1⟩
          · exact Or.inl ⟨((0, t'), _), a0, a1, rfl, a2.trans hsk, a3, ⟨done ++ (d :: k.nodes), hv.step (skel_shape a2) a4⟩, hw'.step a5⟩
          · exact Or.inr ⟨a0, hw'.refused a1⟩)
        (t.adj c) F ((0, u), w1) hsub.tops
        ⟨rfl, hsk1, hu1, ⟨[], hv1⟩, hw1⟩ with ⟨⟨⟨e, v⟩, w2⟩, q1, q1', q2⟩ | ⟨q1, hB⟩
      · simp only at q1'
        obtain ⟨h0, hsk, hu, ⟨done, hv⟩, hw⟩ := q2
        simp only at h0 hsk hu hv hw; subst h0
        obtain ⟨d1, d2⟩ := SoFar.done hw
        exact Or.inl ⟨v, by rw [q1, d1], ⟨q1', hsk, hu, hv.finish⟩, d2⟩
      · exact Or.inr ⟨q1, hB⟩
    · exact Or.inr ⟨by rw [r1]; rfl, hB⟩

/-- all separators of the tree -/
theorem need_all {t : JTree K} {F : Forest} (hF : Rooted t 0 F) : need t.sepVars F.seps = 2 * (t.sepsets.filter (fun s => s.vars ≠ [])).length := by
  have hperm : F.seps.Perm (List.range t.sepsets.length) := by
    rw [List.perm_ext_iff_of_nodup hF.dist.seps List.nodup_range]
    intro s; rw [hF.seps s, List.mem_range]
  unfold need
  rw [(hperm.map _).sum_eq]
  have hmap : (List.range t.sepsets.length).map (fun s => asks (t.sepVars s)) = t.sepsets.map (fun s => asks s.vars) := by
    apply List.ext_getElem
    · simp
    · intro i h1 h2
      simp only [List.getElem_map, List.getElem_range]
      simp only [List.length_map] at h2
      unfold sepVars
      rw [List.getElem?_eq_getElem h2]
  rw [hmap]
  induction t.sepsets with
  | nil => rfl
  | cons x l ih =>
    simp only [List.map_cons, List.sum_cons, ih, List.filter_cons]
    by_cases h : x.vars = []
    · simp [asks, h]
    · simp [asks, h]; omega

end JTree

namespace Model

section

variable {K : Type} [Zero K] [One K] [Add K] [_root_.Sub K] [Mul K] [Div K] [LinearOrder K]

theorem makeConsistentIn_typed (fails : Nat → Bool) (w : Loans) {card : Nat → Nat} {m m' : Model K} {L : List (Nat × Nat)} (hL : m.tree.Good card L) (ht : JTree.Typed card m.tree)
    (hm' : m.makeConsistent = ok m') :
    (m.makeConsistentIn fails w = ok (m', ⟨w.tried + 4 * (m.tree.sepsets.filter (fun s => s.vars ≠ [])).length, w.held⟩) ∧
        Granted fails w.tried (w.tried + 4 * (m.tree.sepsets.filter (fun s => s.vars ≠ [])).length)) ∨
      (m.makeConsistentIn fails w = ub ∧ Refused fails w.tried (w.tried + 4 * (m.tree.sepsets.filter (fun s => s.vars ≠ [])).length)) := by
  have hsafe := JTree.any_of_typed ht
  have h0 : 0 < m.tree.cliques.length := by have := hL.len; omega
  obtain ⟨F, hF⟩ := hL.rooted ht h0
  have hneed := JTree.need_all hF
  obtain ⟨q, hq⟩ : ∃ q, q = (m.tree.sepsets.filter (fun s => s.vars ≠ [])).length := ⟨_, rfl⟩
  rw [← hq] at hneed
  rw [← hq]
  have hb : m.tree.bare.cliques.length = m.tree.cliques.length := (JTree.bare_shape m.tree).len
  have hsv0 : m.tree.bare.sepVars = m.tree.sepVars := funext (JTree.skel_sepVars (JTree.bare_skel m.tree))
  have hcol := JTree.collectIn_any fails (m.tree.cliques.length + 1) m.tree.bare w none 0 F (hsafe.of_bare (JTree.bare_bare m.tree)) (hF.sub.shape (JTree.bare_shape m.tree)) hF.fuel
    (fun x _ => JTree.bare_mark m.tree x) (by intro p s h; cases h)
  simp only [Option.map_none, Nat.add_zero] at hcol
  rw [hsv0, hneed] at hcol
  unfold makeConsistent at hm'
  rw [JTree.unmarkAll_eq, ok_bind, hb] at hm'
  unfold makeConsistentIn
  rw [JTree.unmarkAll_eq, ok_bind, hb]
  rcases hcol with ⟨t1, c0, ⟨c1, c2, c3, c4⟩, c5⟩ | ⟨c0, i, i1, i2, i3⟩
  · have hsk1 : t1.skel = m.tree.skel := c2.trans (JTree.bare_skel m.tree)
    have hsv1 : t1.bare.sepVars = m.tree.sepVars := (funext (JTree.skel_sepVars (JTree.bare_skel t1))).trans (funext (JTree.skel_sepVars hsk1))
    have hb1 : t1.bare.cliques.length = t1.cliques.length := (JTree.bare_shape t1).len
    have hdis := JTree.distributeIn_any fails (t1.cliques.length + 1) t1.bare ⟨w.tried + 2 * q, w.held⟩ none 0 F (c3.of_bare (JTree.bare_bare t1))
      (hF.sub.shape ((JTree.skel_shape hsk1).trans (JTree.bare_shape t1))) (by rw [JTree.skel_len hsk1]; exact hF.fuel) (fun x _ => JTree.bare_mark t1 x) (by intro s h; cases h)
    rw [hsv1, hneed] at hdis
    rw [c1, ok_bind] at hm'
    rw [c0, ok_bind]
    simp only [ne_eq, not_true, if_false] at hm' ⊢
    rw [JTree.unmarkAll_eq, ok_bind, hb1] at hm' ⊢
    rcases hdis with ⟨t2, d0, ⟨d1, _⟩, d5⟩ | ⟨d0, i, i1, i2, i3⟩
    · rw [d1, ok_bind] at hm'
      simp only [ok.injEq] at hm'
      refine Or.inl ⟨?_, fun i h1 h2 => ?_⟩
      · rw [d0, ok_bind, ← hm']
        simp only [ok.injEq, Prod.mk.injEq, Loans.mk.injEq, true_and, and_true]
        omega
      · simp only at d5
        by_cases hi : i < w.tried + 2 * q
        · exact c5 i h1 hi
        · exact d5 i (by omega) (by omega)
    · simp only at i1 i2
      exact Or.inr ⟨by rw [d0, ub_bind], i, by omega, by omega, i3⟩
  · exact Or.inr ⟨by rw [c0, ub_bind], i, i1, by omega, i3⟩

end

variable {K : Type} [Field K] [LinearOrder K] [IsStrictOrderedRing K]

theorem makeConsistentIn_spec (fails : Nat → Bool) (w : Loans) {net : Net K} {m : Model K} {wd : World K} (h : Holds net m wd) :
    ∃ m' n, n = 4 * (m.tree.sepsets.filter (fun s => s.vars ≠ [])).length ∧ m.makeConsistent = ok m' ∧
      ((m.makeConsistentIn fails w = ok (m', ⟨w.tried + n, w.held⟩) ∧ Granted fails w.tried (w.tried + n)) ∨
        (m.makeConsistentIn fails w = ub ∧ Refused fails w.tried (w.tried + n))) := by
  obtain ⟨m', hm', _⟩ := makeConsistent_spec h
  obtain ⟨L, hL⟩ := h.sound.good
  exact ⟨m', _, rfl, hm', makeConsistentIn_typed fails w hL h.sound.typed hm'⟩

theorem getProbabilityIn_spec (fails : Nat → Bool) (w : Loans) {net : Net K} {m : Model K} {wd : World K} (h : Holds net m wd) {v : Nat} (hv : v ∈ net.vars) :
    ∃ r m' n, n = (if (m.var v).familyClique = none then 2 else 1) ∧ m.getProbability v = ok (some r, m') ∧
      ((m.getProbabilityIn fails w v = ok ((some r, m'), ⟨w.tried + n, w.held + 1⟩) ∧ Granted fails w.tried (w.tried + n)) ∨
        (m.getProbabilityIn fails w v = ok ((none, m), ⟨w.tried + (if fails w.tried then 1 else 2), w.held⟩) ∧ Refused fails w.tried (w.tried + n))) := by
  obtain ⟨c, r, hp, _⟩ := getProbability_run h hv
  refine ⟨r, m.memo v c, _, rfl, hp, ?_⟩
  unfold getProbability at hp
  obtain ⟨⟨o, m1⟩, hff, hp⟩ := bind_ok hp
  unfold getProbabilityIn Loans.calloc
  cases hf : fails w.tried with
  | true =>
    refine Or.inr ⟨by simp, w.tried, le_refl _, by split <;> omega, hf⟩
  | false =>
    simp only [Bool.false_eq_true, if_false]
    cases ho : o with
    | none => rw [ho] at hp; simp at hp
    | some c' =>
    rw [ho] at hp hff
    simp only at hp
    unfold findFamily at hff
    unfold findFamilyIn Loans.calloc
    cases hfc : (m.var v).familyClique with
    | some c1 =>
      rw [hfc] at hff
      simp only [ok.injEq, Prod.mk.injEq, Option.some.injEq] at hff
      obtain ⟨e1, e2⟩ := hff
      subst e1 e2
      refine Or.inl ⟨?_, fun i h1 h2 => ?_⟩
      · obtain ⟨⟨e, l⟩, g1, hp⟩ := bind_ok hp
        obtain ⟨l', g2, hp⟩ := bind_ok hp
        simp only [ok.injEq, Prod.mk.injEq] at hp g2
        obtain ⟨q1, q2⟩ := hp
        rw [← q2, ← q1]
        simp only [ok_bind, g1, g2]
        simp
      · simp only [reduceCtorEq, if_false] at h2
        obtain rfl : i = w.tried := by omega
        exact hf
    | none =>
      rw [hfc] at hff
      simp only at hff
      obtain ⟨found, g0, hff⟩ := bind_ok hff
      simp only [ok.injEq, Prod.mk.injEq] at hff
      obtain ⟨e1, e2⟩ := hff
      subst e1
      simp only [if_true]
      cases hf2 : fails (w.tried + 1) with
      | true =>
        exact Or.inr ⟨by simp [Loans.free], w.tried + 1, by omega, by omega, hf2⟩
      | false =>
        refine Or.inl ⟨?_, fun i h1 h2 => ?_⟩
        · simp only [Bool.false_eq_true, if_false, g0, ok_bind]
          rw [e2]
          have hcard : (m.var v).card = (m1.var v).card := by
            rw [← e2]; simp [setVar]
          rw [hcard]
          obtain ⟨⟨e, l⟩, g1, hp⟩ := bind_ok hp
          obtain ⟨l', g2, hp⟩ := bind_ok hp
          simp only [ok.injEq, Prod.mk.injEq] at hp g2
          obtain ⟨q1, q2⟩ := hp
          rw [← q2, ← q1]
          simp only [g1, ok_bind, g2, Loans.free]
          simp
        · obtain h | h : i = w.tried ∨ i = w.tried + 1 := by omega
          · rw [h]; exact hf
          · rw [h]; exact hf2

end Model

end Nip
