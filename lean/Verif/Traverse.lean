import Verif.Message

/-! # The traversals as sequences of messages -/

namespace Nip

open Res Spec

set_option linter.unusedSectionVars false

/-- messages of `collect` below clique `c` -/
def collectMsgs (c : Nat) : Forest → List (Nat × Nat × Nat)
  | .nil => []
  | .cons s d k r => collectMsgs d k ++ (d, s, c) :: collectMsgs c r

/-- messages of `distribute` from clique `c` to its neighbours below -/
def topMsgs (c : Nat) : Forest → List (Nat × Nat × Nat)
  | .nil => []
  | .cons s d _ r => (c, s, d) :: topMsgs c r

/-- messages of `distribute` further down -/
def distSub : Forest → List (Nat × Nat × Nat)
  | .nil => []
  | .cons _ d k r => (topMsgs d k ++ distSub k) ++ distSub r

/-- what a depth-first traversal visits -/
inductive Ev where
  | clq (c : Nat)
  | sep (s : Nat)

def events : Forest → List Ev
  | .nil => []
  | .cons s d k r => Ev.sep s :: Ev.clq d :: (events k ++ events r)

variable {K : Type} [Zero K] [One K] [Add K] [_root_.Sub K] [Mul K] [Div K] [LinearOrder K] {card : Nat → Nat}

namespace JTree

theorem mark_lt {t : JTree K} {x : Nat} (h : t.markOf x = true) : x < t.cliques.length := by
  by_contra hge
  unfold markOf at h
  rw [List.getElem?_eq_none (by omega)] at h
  simp at h

theorem Joins.shape {t t' : JTree K} (h : SameShape t t') {s a b : Nat} (hj : Joins t s a b) : Joins t' s a b := by
  unfold Joins at hj ⊢; rw [h.ends]; exact hj

/-- what is known while the subtrees under `c` are visited: `done` lists the cliques already visited -/
structure Visit (t0 : JTree K) (c : Nat) (F G : Forest) (t : JTree K) (done : List Nat) : Prop where
  shape : SameShape t0 t
  rep : Rep t0 c G
  split : F.nodes = done ++ G.nodes
  mark : ∀ x, t.markOf x = (t0.markOf x || decide (x ∈ c :: done))

theorem Visit.facts {t0 t : JTree K} {ps : Option Nat} {c s d : Nat} {F k r : Forest} {done : List Nat}
    (h : Visit t0 c F (.cons s d k r) t done) (hsub : Sub t0 ps c F) (hmark : ∀ x ∈ c :: F.nodes, t0.markOf x = false) :
    Joins t s c d ∧ t.markOf c = true ∧ (∀ x ∈ d :: k.nodes, t.markOf x = false) ∧ Sub t (some s) d k ∧
      c < t.cliques.length ∧ d < t.cliques.length ∧ k.nodes.length < F.nodes.length ∧ c ≠ d := by
  obtain ⟨hsh, ⟨hj, htop, hk, hr⟩, hdone, hm⟩ := h
  have hnd := hsub.nodup
  simp only [Forest.nodes] at hdone
  have hmem : ∀ x ∈ d :: k.nodes, x ∈ F.nodes := by
    intro x hx; rw [hdone]
    rcases List.mem_cons.mp hx with h | h
    · simp [h]
    · simp [h]
  rw [hdone] at hnd
  simp only [List.nodup_cons, List.mem_append, List.mem_cons, not_or, List.nodup_append] at hnd
  obtain ⟨⟨hn1, hn2, hn3, hn4⟩, hn5, ⟨⟨hn6, hn7⟩, hn8, hn9, hn10⟩, hn11⟩ := hnd
  refine ⟨hj.shape hsh, by rw [hm]; simp, ?_, ?_, ?_, ?_, ?_, hn2⟩
  · intro x hx
    rw [hm, hmark x (List.mem_cons_of_mem _ (hmem x hx))]
    simp only [Bool.false_or, decide_eq_false_iff_not, List.mem_cons, not_or]
    simp only [List.mem_cons] at hx
    refine ⟨?_, ?_⟩
    · rintro rfl
      rcases hx with hx | hx
      · exact hn2 hx
      · exact hn3 hx
    · intro hxd
      refine hn11 x hxd x ?_ rfl
      rcases hx with hx | hx
      · exact Or.inl hx
      · exact Or.inr (Or.inl hx)
  · have : Sub t0 (some s) d k := by
      refine ⟨?_, hk, List.nodup_cons.mpr ⟨hn6, hn8⟩, fun x hx => hsub.lt x (List.mem_cons_of_mem _ (hmem x hx))⟩
      rw [← htop]
      apply List.filter_congr
      intro x _; simp
    exact this.shape hsh
  · rw [hsh.len]; exact hsub.lt c (List.mem_cons_self ..)
  · rw [hsh.len]; exact hsub.lt d (List.mem_cons_of_mem _ (hmem d (List.mem_cons_self ..)))
  · have := congrArg List.length hdone
    simp at this; omega

theorem Visit.step {t0 t t' : JTree K} {c s d : Nat} {F k r : Forest} {done : List Nat}
    (h : Visit t0 c F (.cons s d k r) t done) (hs : SameShape t t')
    (hm : ∀ x, t'.markOf x = (t.markOf x || decide (x ∈ d :: k.nodes))) : Visit t0 c F r t' (done ++ (d :: k.nodes)) := by
  refine ⟨h.shape.trans hs, h.rep.2.2.2, by rw [h.split]; simp [Forest.nodes], ?_⟩
  intro x
  rw [hm x, h.mark x]
  simp only [List.mem_cons, List.mem_append, Bool.or_assoc]
  congr 1
  rw [← Bool.decide_or]
  congr 1
  simp only [or_assoc]

theorem Visit.start {t0 t : JTree K} {c : Nat} {F : Forest} {ps : Option Nat} (hsub : Sub t0 ps c F) (hb : SameShape t0 t)
    (hm : ∀ x, t.markOf x = if x = c then true else t0.markOf x) : Visit t0 c F F t [] := by
  refine ⟨hb, hsub.rep, by simp, ?_⟩
  intro x; rw [hm]
  by_cases e : x = c
  · simp [e]
  · simp [e]

theorem Visit.finish {t0 t : JTree K} {c : Nat} {F : Forest} {done : List Nat} (h : Visit t0 c F .nil t done) (x : Nat) :
    t.markOf x = (t0.markOf x || decide (x ∈ c :: F.nodes)) := by
  rw [h.mark x, h.split]; simp [Forest.nodes]

/-! ### collect -/

def collStep (fuel c2 : Nat) (st : Nat × JTree K) (s : Nat) : Res (Nat × JTree K) := do
  if st.1 ≠ 0 then ok st
  else do
    let sp ← rd st.2.sepsets s
    let m1 ← st.2.marked sp.first
    let st ← (if !m1 then collect fuel st.2 (some c2) (some s) sp.first else ok st)
    if st.1 ≠ 0 then ok st
    else do
      let m2 ← st.2.marked sp.second
      if !m2 then collect fuel st.2 (some c2) (some s) sp.second else ok st

theorem collect_succ (fuel : Nat) (t : JTree K) (c1 s12 : Option Nat) (c : Nat) (h : c < t.cliques.length) {t1 : JTree K}
    (hm : t.setMark c true = ok t1) :
    collect (fuel + 1) t c1 s12 c = ((t.adj c).foldlM (collStep fuel c) (0, t1)).bind (fun st =>
      if st.1 ≠ 0 then ok st
      else match c1, s12 with
        | some c1, some s12 => st.2.messagePass c s12 c1
        | _, _ => ok st) := by
  have e : t.adj c = t.cliques[c].sepsets := by unfold adj; rw [List.getElem?_eq_getElem h]
  rw [e]
  conv => lhs; unfold collect
  rw [rd_lt h, ok_bind, hm, ok_bind]
  rfl

theorem collStep_skip {fuel c2 : Nat} {t : JTree K} {s a b : Nat} (hj : Joins t s a b) (ha : t.markOf a = true) (hb : t.markOf b = true) :
    collStep fuel c2 (0, t) s = ok (0, t) := by
  obtain ⟨sp, h1, h2⟩ := joins_rd hj
  unfold collStep
  have hm1 : t.marked sp.first = ok true := by
    rcases h2 with ⟨e1, e2⟩ | ⟨e1, e2⟩ <;> rw [e1, marked_eq]
    · rw [ha]
    · exact mark_lt ha
    · rw [hb]
    · exact mark_lt hb
  have hm2 : t.marked sp.second = ok true := by
    rcases h2 with ⟨e1, e2⟩ | ⟨e1, e2⟩ <;> rw [e2, marked_eq]
    · rw [hb]
    · exact mark_lt hb
    · rw [ha]
    · exact mark_lt ha
  simp [h1, hm1, hm2]

theorem collStep_visit {fuel c : Nat} {t t' : JTree K} {s d : Nat} (hj : Joins t s c d) (hc : t.markOf c = true) (hd : t.markOf d = false)
    (hlt : d < t.cliques.length) (hcol : collect fuel t (some c) (some s) d = ok (0, t')) (hc' : t'.markOf c = true)
    (hd' : t'.markOf d = true) :
    collStep fuel c (0, t) s = ok (0, t') := by
  obtain ⟨sp, h1, h2⟩ := joins_rd hj
  unfold collStep
  rcases h2 with ⟨e1, e2⟩ | ⟨e1, e2⟩
  · simp [h1, e1, e2, marked_eq t (mark_lt hc), hc, marked_eq t hlt, hd, hcol]
  · simp [h1, e1, e2, marked_eq t hlt, hd, hcol, marked_eq t' (mark_lt hc'), hc']

def parentMsg (c : Nat) : Option (Nat × Nat) → List (Nat × Nat × Nat)
  | some (p, s) => [(c, s, p)]
  | none => []

theorem collect_spec {K : Type} [Field K] [LinearOrder K] (fuel : Nat) : ∀ (t : JTree K) (par : Option (Nat × Nat)) (c : Nat) (F : Forest), Typed card t →
    Sub t (par.map (·.2)) c F → F.nodes.length < fuel → (∀ x ∈ c :: F.nodes, t.markOf x = false) →
    (∀ p s, par = some (p, s) → Joins t s p c ∧ t.markOf p = true) →
    ∃ t', collect fuel t (par.map (·.1)) (par.map (·.2)) c = ok (0, t') ∧ t'.skel = t.skel ∧ Typed card t' ∧
      (∀ x, t'.markOf x = (t.markOf x || decide (x ∈ c :: F.nodes))) ∧
      t'.st card = (collectMsgs c F ++ parentMsg c par).foldl (msg card t.varsOf t.sepVars) (t.st card) := by
  induction fuel with
  | zero => intro t par c F _ _ h; omega
  | succ fuel ih =>
    intro t par c F hty hsub hfuel hmark hpar
    have hc := hsub.lt c (List.mem_cons_self ..)
    obtain ⟨t1, m1, m2, m3, _⟩ := setMark_eq t c true hc
    rw [collect_succ fuel t _ _ c hc m1]
    obtain ⟨⟨e, u⟩, r1, r2⟩ := fold_adj (collStep fuel c) (par.map (·.2))
      (fun G (st : Nat × JTree K) => st.1 = 0 ∧ st.2.skel = t.skel ∧ Typed card st.2 ∧ ∃ done, Visit t c F G st.2 done ∧
        ∃ ms, collectMsgs c F = ms ++ collectMsgs c G ∧ st.2.st card = ms.foldl (msg card t.varsOf t.sepVars) (t.st card))
      (by
        rintro G ⟨e, u⟩ s hs ⟨h0, hsk, hu, done, hv, _⟩
        simp only at h0; subst h0
        obtain ⟨⟨p, s'⟩, hp1, hp2⟩ := Option.map_eq_some_iff.mp hs
        simp only at hp2; subst hp2
        obtain ⟨hj, hp⟩ := hpar p s' hp1
        exact collStep_skip (hj.shape hv.shape) (by rw [hv.mark, hp]; rfl) (by rw [hv.mark]; simp))
      (by
        rintro s d k r ⟨e, u⟩ ⟨h0, hsk, hu, done, hv, ms, hms, hst⟩
        simp only at h0 hsk hu hv hst; subst h0
        obtain ⟨f1, f2, f3, f4, f5, f6, f7, _⟩ := hv.facts hsub hmark
        obtain ⟨t', a1, a2, a3, a4, a5⟩ := ih u (some (c, s)) d k hu f4 (by omega) f3
          (by rintro _ _ ⟨rfl, rfl⟩; exact ⟨f1, f2⟩)
        refine ⟨(0, t'), collStep_visit f1 f2 (f3 d (List.mem_cons_self ..)) f6 a1 (by rw [a4, f2]; rfl) (by rw [a4]; simp), rfl,
          a2.trans hsk, a3, done ++ (d :: k.nodes), hv.step (skel_shape a2) a4, ms ++ (collectMsgs d k ++ [(d, s, c)]), ?_, ?_⟩
        · rw [hms]; simp [collectMsgs]
        · rw [List.foldl_append, ← hst]
          show t'.st card = _
          rw [a5]
          have e1 : u.varsOf = t.varsOf := funext (skel_vars hsk)
          have e2 : u.sepVars = t.sepVars := funext (skel_sepVars hsk)
          rw [e1, e2]; rfl)
      (t.adj c) F (0, t1) hsub.tops
      ⟨rfl, skel_of_bare m2, hty.of_bare m2, [], Visit.start hsub (shape_of_bare m2) m3, [], rfl, st_of_bare m2⟩
    rw [r1]
    obtain ⟨h0, hsk, hu, done, hv, ms, hms, hst⟩ := r2
    simp only at h0 hsk hu hv hst; subst h0
    simp only [ok_bind', ne_eq, not_true, if_false]
    have hms' : ms = collectMsgs c F := by rw [hms]; simp [collectMsgs]
    cases hp : par with
    | none =>
      refine ⟨u, rfl, hsk, hu, hv.finish, ?_⟩
      rw [hst, hms']; simp [parentMsg]
    | some ps =>
      obtain ⟨p, s⟩ := ps
      obtain ⟨hj, hpm⟩ := hpar p s hp
      have hpl : p < u.cliques.length := by rw [skel_len hsk]; exact mark_lt hpm
      obtain ⟨t', b1, b2, b3, b4, b5⟩ := messagePass_eq hu (hj.symm.shape hv.shape) (by rw [skel_len hsk]; exact hc) hpl
      refine ⟨t', b1, b2.trans hsk, b4, fun x => by rw [b3]; exact hv.finish x, ?_⟩
      rw [b5, hst, hms', List.foldl_append]
      have e1 : u.varsOf = t.varsOf := funext (skel_vars hsk)
      have e2 : u.sepVars = t.sepVars := funext (skel_sepVars hsk)
      rw [e1, e2]; rfl

/-! ### distribute -/

def distStep1 (c : Nat) (st : Nat × JTree K) (s : Nat) : Res (Nat × JTree K) := do
  if st.1 ≠ 0 then ok st
  else do
    let n ← st.2.next s
    match n with
    | some d => st.2.messagePass c s d
    | none => ok st

def distStep2 (fuel : Nat) (st : Nat × JTree K) (s : Nat) : Res (Nat × JTree K) := do
  if st.1 ≠ 0 then ok st
  else do
    let n ← st.2.next s
    match n with
    | some d => distribute fuel st.2 d
    | none => ok st

theorem distribute_succ (fuel : Nat) (t : JTree K) (c : Nat) (h : c < t.cliques.length) {t1 : JTree K} (hm : t.setMark c true = ok t1) :
    distribute (fuel + 1) t c = ((t.adj c).foldlM (distStep1 c) (0, t1)).bind (fun st => (t.adj c).foldlM (distStep2 fuel) st) := by
  have e : t.adj c = t.cliques[c].sepsets := by unfold adj; rw [List.getElem?_eq_getElem h]
  rw [e]
  conv => lhs; unfold distribute
  rw [rd_lt h, ok_bind, hm, ok_bind]
  rfl

theorem distribute_spec {K : Type} [Field K] [LinearOrder K] (fuel : Nat) : ∀ (t : JTree K) (ps : Option Nat) (c : Nat) (F : Forest), Typed card t →
    Sub t ps c F → F.nodes.length < fuel → (∀ x ∈ c :: F.nodes, t.markOf x = false) →
    (∀ s, ps = some s → ∃ p, Joins t s p c ∧ t.markOf p = true) →
    ∃ t', distribute fuel t c = ok (0, t') ∧ t'.skel = t.skel ∧ Typed card t' ∧
      (∀ x, t'.markOf x = (t.markOf x || decide (x ∈ c :: F.nodes))) ∧
      t'.st card = (topMsgs c F ++ distSub F).foldl (msg card t.varsOf t.sepVars) (t.st card) := by
  induction fuel with
  | zero => intro t ps c F _ _ h; omega
  | succ fuel ih =>
    intro t ps c F hty hsub hfuel hmark hps
    have hc := hsub.lt c (List.mem_cons_self ..)
    obtain ⟨t1, m1, m2, m3, _⟩ := setMark_eq t c true hc
    rw [distribute_succ fuel t c hc m1]
    -- the messages to the neighbours
    obtain ⟨⟨e, u⟩, r1, r2⟩ := fold_adj (distStep1 c) ps
      (fun G (st : Nat × JTree K) => st.1 = 0 ∧ st.2.skel = t.skel ∧ Typed card st.2 ∧ Visit t c F F st.2 [] ∧
        ∃ done, Rep t c G ∧ F.nodes = done ++ G.nodes ∧
        ∃ ms, topMsgs c F = ms ++ topMsgs c G ∧ st.2.st card = ms.foldl (msg card t.varsOf t.sepVars) (t.st card))
      (by
        rintro G ⟨e, u⟩ s hs ⟨h0, hsk, hu, hv, _⟩
        simp only at h0 hv; subst h0
        obtain ⟨p, hj, hp⟩ := hps s hs
        unfold distStep1
        simp only [ne_eq, not_true, if_false]
        rw [next_none (hj.shape hv.shape) (by rw [hv.mark, hp]; rfl) (by rw [hv.mark]; simp)]
        rfl)
      (by
        rintro s d k r ⟨e, u⟩ ⟨h0, hsk, hu, hv, done, hrep, hdone, ms, hms, hst⟩
        simp only at h0 hsk hu hv hst; subst h0
        have hd : d ∈ F.nodes := by rw [hdone]; simp [Forest.nodes]
        have hcd : d ≠ c := fun e => (List.nodup_cons.mp hsub.nodup).1 (e ▸ hd)
        have hj := hrep.1.shape hv.shape
        have hdl : d < u.cliques.length := by rw [skel_len hsk]; exact hsub.lt d (List.mem_cons_of_mem _ hd)
        have hcm : u.markOf c = true := by rw [hv.mark]; simp
        have hdm : u.markOf d = false := by
          rw [hv.mark, hmark d (List.mem_cons_of_mem _ hd)]; simp [hcd]
        obtain ⟨t', b1, b2, b3, b4, b5⟩ := messagePass_eq hu hj (mark_lt hcm) hdl
        refine ⟨(0, t'), ?_, rfl, b2.trans hsk, b4, ?_, done ++ (d :: k.nodes), hrep.2.2.2, by rw [hdone]; simp [Forest.nodes],
          ms ++ [(c, s, d)], by rw [hms]; simp [topMsgs], ?_⟩
        · unfold distStep1
          simp only [ne_eq, not_true, if_false]
          rw [next_some hj hcm hdm hdl]
          exact b1
        · exact ⟨hv.shape.trans (skel_shape b2), hv.rep, hv.split, fun x => by rw [b3]; exact hv.mark x⟩
        · rw [List.foldl_append, ← hst]
          show t'.st card = _
          rw [b5]
          have e1 : u.varsOf = t.varsOf := funext (skel_vars hsk)
          have e2 : u.sepVars = t.sepVars := funext (skel_sepVars hsk)
          rw [e1, e2]; rfl)
      (t.adj c) F (0, t1) hsub.tops
      ⟨rfl, skel_of_bare m2, hty.of_bare m2, Visit.start hsub (shape_of_bare m2) m3, [], hsub.rep, by simp, [], rfl, st_of_bare m2⟩
    rw [r1]
    obtain ⟨h0, hsk1, hu1, hv1, done1, _, _, ms1, hms1, hst1⟩ := r2
    simp only at h0 hsk1 hu1 hv1 hst1; subst h0
    simp only [ok_bind']
    have hms1' : ms1 = topMsgs c F := by rw [hms1]; simp [topMsgs]
    rw [hms1'] at hst1
    -- the recursive calls
    obtain ⟨⟨e, w⟩, q1, q2⟩ := fold_adj (distStep2 fuel) ps
      (fun G (st : Nat × JTree K) => st.1 = 0 ∧ st.2.skel = t.skel ∧ Typed card st.2 ∧ ∃ done, Visit t c F G st.2 done ∧
        ∃ ms, distSub F = ms ++ distSub G ∧ st.2.st card = ms.foldl (msg card t.varsOf t.sepVars) (u.st card))
      (by
        rintro G ⟨e, w⟩ s hs ⟨h0, hsk, hu, done, hv, _⟩
        simp only at h0 hv; subst h0
        obtain ⟨p, hj, hp⟩ := hps s hs
        unfold distStep2
        simp only [ne_eq, not_true, if_false]
        rw [next_none (hj.shape hv.shape) (by rw [hv.mark, hp]; rfl) (by rw [hv.mark]; simp)]
        rfl)
      (by
        rintro s d k r ⟨e, w⟩ ⟨h0, hsk, hu, done, hv, ms, hms, hst⟩
        simp only at h0 hsk hu hv hst; subst h0
        obtain ⟨f1, f2, f3, f4, f5, f6, f7, _⟩ := hv.facts hsub hmark
        obtain ⟨t', a1, a2, a3, a4, a5⟩ := ih w (some s) d k hu f4 (by omega) f3
          (by rintro _ ⟨rfl⟩; exact ⟨c, f1, f2⟩)
        refine ⟨(0, t'), ?_, rfl, a2.trans hsk, a3, done ++ (d :: k.nodes), hv.step (skel_shape a2) a4,
          ms ++ (topMsgs d k ++ distSub k), by rw [hms]; simp [distSub], ?_⟩
        · unfold distStep2
          simp only [ne_eq, not_true, if_false]
          rw [next_some f1 f2 (f3 d (List.mem_cons_self ..)) f6]
          exact a1
        · rw [List.foldl_append, ← hst]
          show t'.st card = _
          rw [a5]
          have e1 : w.varsOf = t.varsOf := funext (skel_vars hsk)
          have e2 : w.sepVars = t.sepVars := funext (skel_sepVars hsk)
          rw [e1, e2])
      (t.adj c) F (0, u) hsub.tops
      ⟨rfl, hsk1, hu1, [], hv1, [], rfl, rfl⟩
    obtain ⟨h0, hsk, hu, done, hv, ms, hms, hst⟩ := q2
    simp only at h0 hsk hu hv hst; subst h0
    have hms' : ms = distSub F := by rw [hms]; simp [distSub]
    refine ⟨w, q1, hsk, hu, hv.finish, ?_⟩
    rw [hst, hms', hst1, List.foldl_append]

/-! ### the general depth-first search -/

def dfsStep (cFun sFun : Nat → JTree K × K → Res (Nat × (JTree K × K))) (fuel : Nat) (r : Nat × (JTree K × K)) (s : Nat) :
    Res (Nat × (JTree K × K)) := do
  if r.1 ≠ 0 then ok r
  else do
    let n ← r.2.1.next s
    match n with
    | some d => do
      let (e, st) ← sFun s r.2
      if e ≠ 0 then ok (e, st)
      else do
        let (_, st) ← dfs cFun sFun fuel st d
        ok (0, st)
    | none => ok r

theorem dfs_succ (cFun sFun : Nat → JTree K × K → Res (Nat × (JTree K × K))) (fuel : Nat) (t : JTree K) (a : K) (c : Nat)
    (h : c < t.cliques.length) {t1 : JTree K} (hm : t.setMark c true = ok t1) :
    dfs cFun sFun (fuel + 1) (t, a) c = (cFun c (t1, a)).bind (fun r =>
      if r.1 ≠ 0 then ok (r.1, r.2) else (t.adj c).foldlM (dfsStep cFun sFun fuel) (0, r.2)) := by
  have e : t.adj c = t.cliques[c].sepsets := by unfold adj; rw [List.getElem?_eq_getElem h]
  rw [e]
  conv => lhs; unfold dfs
  simp only [rd_lt h, ok_bind, hm]
  rfl

/-- `I done st`: what holds after visiting `done`; it must not look at marks. -/
theorem dfs_spec (cFun sFun : Nat → JTree K × K → Res (Nat × (JTree K × K))) (I : List Ev → JTree K × K → Prop)
    (hI : ∀ done t t' a, I done (t, a) → t'.bare = t.bare → I done (t', a))
    (hC : ∀ done t a c, I done (t, a) → c < t.cliques.length → ∃ t' a', cFun c (t, a) = ok (0, (t', a')) ∧ I (done ++ [Ev.clq c]) (t', a') ∧
      SameShape t t' ∧ ∀ x, t'.markOf x = t.markOf x)
    (hS : ∀ done t a s p q, I done (t, a) → Joins t s p q → ∃ t' a', sFun s (t, a) = ok (0, (t', a')) ∧ I (done ++ [Ev.sep s]) (t', a') ∧
      SameShape t t' ∧ ∀ x, t'.markOf x = t.markOf x) (fuel : Nat) :
    ∀ (t : JTree K) (a : K) (ps : Option Nat) (c : Nat) (F : Forest) (evs : List Ev), I evs (t, a) →
    Sub t ps c F → F.nodes.length < fuel → (∀ x ∈ c :: F.nodes, t.markOf x = false) →
    (∀ s, ps = some s → ∃ p, Joins t s p c ∧ t.markOf p = true) →
    ∃ t' a', dfs cFun sFun fuel (t, a) c = ok (0, (t', a')) ∧ SameShape t t' ∧ I (evs ++ Ev.clq c :: events F) (t', a') ∧
      (∀ x, t'.markOf x = (t.markOf x || decide (x ∈ c :: F.nodes))) := by
  induction fuel with
  | zero => intro t a ps c F _ _ _ h; omega
  | succ fuel ih =>
    intro t a ps c F evs hi hsub hfuel hmark hps
    have hc := hsub.lt c (List.mem_cons_self ..)
    obtain ⟨t1, m1, m2, m3, _⟩ := setMark_eq t c true hc
    rw [dfs_succ cFun sFun fuel t a c hc m1]
    obtain ⟨t2, a2, c1, c2, c3, c4⟩ := hC evs t1 a c (hI _ _ _ _ hi m2) (by rw [(shape_of_bare m2).len]; exact hc)
    rw [c1]
    simp only [ok_bind', ne_eq, not_true, if_false]
    obtain ⟨⟨e, w, b⟩, q1, q2⟩ := fold_adj (dfsStep cFun sFun fuel) ps
      (fun G (st : Nat × (JTree K × K)) => st.1 = 0 ∧ ∃ done, Visit t c F G st.2.1 done ∧
        ∃ ev, events F = ev ++ events G ∧ I (evs ++ [Ev.clq c] ++ ev) (st.2.1, st.2.2))
      (by
        rintro G ⟨e, w, b⟩ s hs ⟨h0, done, hv, _⟩
        simp only at h0 hv; subst h0
        obtain ⟨p, hj, hp⟩ := hps s hs
        unfold dfsStep
        simp only [ne_eq, not_true, if_false]
        rw [next_none (hj.shape hv.shape) (by rw [hv.mark, hp]; rfl) (by rw [hv.mark]; simp)]
        rfl)
      (by
        rintro s d k r ⟨e, w, b⟩ ⟨h0, done, hv, ev, hev, hiw⟩
        simp only at h0 hv hiw; subst h0
        obtain ⟨f1, f2, f3, f4, f5, f6, f7, _⟩ := hv.facts hsub hmark
        obtain ⟨w1, b1, s1, s2, s3, s4⟩ := hS _ w b s c d hiw f1
        obtain ⟨t', a', d1, d2, d3, d4⟩ := ih w1 b1 (some s) d k _ s2 (f4.shape s3) (by omega)
          (by intro x hx; rw [s4]; exact f3 x hx) (by rintro _ ⟨rfl⟩; exact ⟨c, f1.shape s3, by rw [s4]; exact f2⟩)
        refine ⟨(0, t', a'), ?_, rfl, done ++ (d :: k.nodes), hv.step (s3.trans d2) (by intro x; rw [d4, s4]),
          ev ++ (Ev.sep s :: Ev.clq d :: events k), by rw [hev]; simp [events], ?_⟩
        · unfold dfsStep
          simp only [ne_eq, not_true, if_false]
          rw [next_some f1 f2 (f3 d (List.mem_cons_self ..)) f6]
          simp [s1, d1]
        · simpa using d3)
      (t.adj c) F (0, t2, a2) hsub.tops
      ⟨rfl, [], Visit.start hsub ((shape_of_bare m2).trans c3) (by intro x; show t2.markOf x = _; rw [c4, m3]), [], rfl, by simpa using c2⟩
    obtain ⟨h0, done, hv, ev, hev, hiw⟩ := q2
    simp only at h0 hv hiw; subst h0
    have hev' : ev = events F := by rw [hev]; simp [events]
    refine ⟨w, b, q1, hv.shape, ?_, hv.finish⟩
    rw [hev'] at hiw
    simpa using hiw

end JTree
end Nip
