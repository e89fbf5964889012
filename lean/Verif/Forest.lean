import Verif.Sepsets
import Verif.PotentialLemmas
import Verif.VariableLemmas

/-! # Rooted trees, marks, and the depth-first traversals -/

namespace Nip

open Res

set_option linter.unusedSectionVars false

variable {K : Type} [Zero K] [One K] [Add K] [_root_.Sub K] [Mul K] [Div K] [LinearOrder K]

/-- A list of rooted trees: the separator and the clique at the top of the first one, its subtrees, and the other trees. -/
inductive Forest where
  | nil : Forest
  | cons (s c : Nat) (kids rest : Forest) : Forest

namespace Forest

def tops : Forest → List Nat
  | nil => []
  | cons s _ _ r => s :: r.tops

def nodes : Forest → List Nat
  | nil => []
  | cons _ c k r => c :: (k.nodes ++ r.nodes)

def seps : Forest → List Nat
  | nil => []
  | cons s _ k r => s :: (k.seps ++ r.seps)

theorem seps_length (F : Forest) : F.seps.length = F.nodes.length := by
  induction F with
  | nil => rfl
  | cons s c k r ih1 ih2 => simp [seps, nodes, ih1, ih2]

/-- a subtree hung under node `a` -/
def graft (a s b : Nat) (G : Forest) : Forest → Forest
  | nil => nil
  | cons s' c k r => cons s' c (if c = a then cons s b G (graft a s b G k) else graft a s b G k) (graft a s b G r)

theorem graft_tops (a s b : Nat) (G F : Forest) : (graft a s b G F).tops = F.tops := by
  induction F with
  | nil => rfl
  | cons s' c k r _ ih => simp [graft, tops, ih]

theorem graft_id (a s b : Nat) (G F : Forest) (h : a ∉ F.nodes) : graft a s b G F = F := by
  induction F with
  | nil => rfl
  | cons s' c k r ih1 ih2 =>
    simp only [nodes, List.mem_cons, List.mem_append, not_or] at h
    simp only [graft]
    rw [if_neg (fun e => h.1 e.symm), ih1 h.2.1, ih2 h.2.2]

theorem graft_nodes (a s b : Nat) (G F : Forest) (h : a ∈ F.nodes) (hn : F.nodes.Nodup) :
    (graft a s b G F).nodes.Perm (b :: (G.nodes ++ F.nodes)) := by
  induction F with
  | nil => cases h
  | cons s' c k r ih1 ih2 =>
    simp only [nodes, List.mem_cons, List.mem_append] at h
    simp only [nodes, List.nodup_cons, List.mem_append, not_or, List.nodup_append] at hn
    obtain ⟨⟨hc1, hc2⟩, hk, hr, hd⟩ := hn
    simp only [graft]
    by_cases hca : c = a
    · subst hca
      rw [if_pos rfl, graft_id _ _ _ _ k hc1, graft_id _ _ _ _ r hc2]
      simp only [nodes]
      rw [List.perm_iff_count]
      intro x
      simp only [List.count_cons, List.count_append, List.cons_append]
      omega
    · rw [if_neg hca]
      rcases h with h | h | h
      · exact absurd h.symm hca
      · have h2 : a ∉ r.nodes := fun hr' => hd a h a hr' rfl
        rw [graft_id _ _ _ _ r h2]
        simp only [nodes]
        have := ih1 h hk
        rw [List.perm_iff_count] at this ⊢
        intro x
        have := this x
        simp only [List.count_cons, List.count_append] at this ⊢
        omega
      · have h2 : a ∉ k.nodes := fun hk' => hd a hk' a h rfl
        rw [graft_id _ _ _ _ k h2]
        simp only [nodes]
        have := ih2 h hr
        rw [List.perm_iff_count] at this ⊢
        intro x
        have := this x
        simp only [List.count_cons, List.count_append] at this ⊢
        omega

end Forest

namespace JTree

/-- the separators next to a clique -/
def adj (t : JTree K) (c : Nat) : List Nat :=
  match t.cliques[c]? with
  | some cl => cl.sepsets
  | none => []

def ends (t : JTree K) (s : Nat) : Option (Nat × Nat) := (t.sepsets[s]?).map (fun sp => (sp.first, sp.second))

def markOf (t : JTree K) (c : Nat) : Bool :=
  match t.cliques[c]? with
  | some cl => cl.mark
  | none => false

/-- the tree without marks -/
def bare (t : JTree K) : JTree K := { t with cliques := t.cliques.map (fun c => { c with mark := false }) }

def Joins (t : JTree K) (s a b : Nat) : Prop := t.ends s = some (a, b) ∨ t.ends s = some (b, a)

theorem Joins.symm {t : JTree K} {s a b : Nat} (h : Joins t s a b) : Joins t s b a := Or.symm h

/-- the two trees have the same shape -/
structure SameShape (t t' : JTree K) : Prop where
  len : t'.cliques.length = t.cliques.length
  adj : ∀ c, t'.adj c = t.adj c
  ends : ∀ s, t'.ends s = t.ends s

theorem SameShape.rfl' (t : JTree K) : SameShape t t := ⟨rfl, fun _ => rfl, fun _ => rfl⟩
theorem SameShape.trans {t1 t2 t3 : JTree K} (h : SameShape t1 t2) (g : SameShape t2 t3) : SameShape t1 t3 :=
  ⟨g.len.trans h.len, fun c => (g.adj c).trans (h.adj c), fun s => (g.ends s).trans (h.ends s)⟩
theorem SameShape.symm {t1 t2 : JTree K} (h : SameShape t1 t2) : SameShape t2 t1 :=
  ⟨h.len.symm, fun c => (h.adj c).symm, fun s => (h.ends s).symm⟩

theorem bare_shape (t : JTree K) : SameShape t t.bare := by
  refine ⟨by simp [bare], fun c => ?_, fun s => rfl⟩
  unfold adj bare
  simp only [List.getElem?_map]
  cases t.cliques[c]? <;> rfl

theorem shape_of_bare {t t' : JTree K} (h : t'.bare = t.bare) : SameShape t t' := by
  have h1 := bare_shape t
  have h2 := bare_shape t'
  rw [h] at h2
  exact h1.trans h2.symm

theorem bare_bare (t : JTree K) : t.bare.bare = t.bare := by simp [bare, Function.comp_def]

theorem bare_mark (t : JTree K) (c : Nat) : t.bare.markOf c = false := by
  unfold markOf bare
  simp only [List.getElem?_map]
  cases t.cliques[c]? <;> rfl

theorem setMark_eq (t : JTree K) (c : Nat) (b : Bool) (hc : c < t.cliques.length) :
    ∃ t', t.setMark c b = ok t' ∧ t'.bare = t.bare ∧ (∀ x, t'.markOf x = if x = c then b else t.markOf x) ∧
      t' = { t with cliques := t.cliques.set c { t.cliques[c] with mark := b } } := by
  refine ⟨{ t with cliques := t.cliques.set c { t.cliques[c] with mark := b } }, ?_, ?_, ?_, rfl⟩
  · unfold setMark; rw [rd_lt hc, ok_bind, wr_lt hc, ok_bind]
  · unfold bare
    simp only [JTree.mk.injEq, and_true]
    apply List.ext_getElem?
    intro i
    rw [List.getElem?_map, List.getElem?_map, List.getElem?_set]
    by_cases e : c = i
    · subst e; rw [if_pos rfl, if_pos hc, List.getElem?_eq_getElem hc]; rfl
    · rw [if_neg e]
  · intro x
    unfold markOf
    simp only
    rw [List.getElem?_set]
    by_cases e : c = x
    · subst e; simp [hc]
    · rw [if_neg e, if_neg (fun e' => e e'.symm)]

theorem unmarkAll_eq (t : JTree K) : t.unmarkAll = ok t.bare := by
  unfold unmarkAll
  obtain ⟨t', h1, h2, h3⟩ := loop_inv (n := t.cliques.length) (f := fun i (t : JTree K) => t.setMark i false) (s := t)
    (fun i t' => t'.bare = t.bare ∧ ∀ x, x < i → t'.markOf x = false) ⟨rfl, by intro x hx; omega⟩
    (by
      rintro i hi s ⟨hb, hm⟩
      have hlen := (shape_of_bare hb).len
      obtain ⟨s', h1, h2, h3, _⟩ := setMark_eq s i false (by omega)
      refine ⟨s', h1, h2.trans hb, ?_⟩
      intro x hx
      rw [h3]
      split
      · rfl
      · exact hm x (by omega))
  rw [h1, ← h2]
  have hlen := (shape_of_bare h2).len
  congr 1
  cases t' with
  | mk cs ss =>
    unfold bare
    simp only [JTree.mk.injEq, and_true]
    apply List.ext_getElem?
    intro i
    rw [List.getElem?_map]
    by_cases hi : i < cs.length
    · have := h3 i (by simp only at hlen; omega)
      unfold markOf at this
      rw [List.getElem?_eq_getElem hi] at this ⊢
      simp only [Option.map_some] at this ⊢
      congr 1
      cases hcl : cs[i]; rw [hcl] at this; simp only at this; simp [this]
    · rw [List.getElem?_eq_none (by omega)]; rfl

theorem joins_rd {t : JTree K} {s a b : Nat} (h : Joins t s a b) :
    ∃ sp, rd t.sepsets s = ok sp ∧ ((sp.first = a ∧ sp.second = b) ∨ (sp.first = b ∧ sp.second = a)) := by
  unfold Joins ends at h
  cases hs : t.sepsets[s]? with
  | none => rw [hs] at h; simp at h
  | some sp =>
    rw [hs] at h
    simp only [Option.map_some, Option.some.injEq, Prod.mk.injEq] at h
    exact ⟨sp, rd_eq_ok.mpr hs, h⟩

theorem marked_eq (t : JTree K) {c : Nat} (h : c < t.cliques.length) : t.marked c = ok (t.markOf c) := by
  unfold marked markOf
  rw [rd_lt h, ok_bind, List.getElem?_eq_getElem h]

theorem next_none {t : JTree K} {s a b : Nat} (h : Joins t s a b) (ha : t.markOf a = true) (hb : t.markOf b = true) :
    t.next s = ok none := by
  have lt : ∀ x, t.markOf x = true → x < t.cliques.length := by
    intro x hx
    by_contra hge
    unfold markOf at hx
    rw [List.getElem?_eq_none (by omega)] at hx
    simp at hx
  obtain ⟨sp, h1, h2⟩ := joins_rd h
  unfold next
  rw [h1, ok_bind]
  rcases h2 with ⟨e1, e2⟩ | ⟨e1, e2⟩ <;> rw [e1, e2]
  · rw [marked_eq t (lt a ha), ok_bind, ha]; simp [marked_eq t (lt b hb), hb]
  · rw [marked_eq t (lt b hb), ok_bind, hb]; simp [marked_eq t (lt a ha), ha]

theorem next_some {t : JTree K} {s a b : Nat} (h : Joins t s a b) (ha : t.markOf a = true) (hb : t.markOf b = false)
    (hlt : b < t.cliques.length) : t.next s = ok (some b) := by
  have hal : a < t.cliques.length := by
    by_contra hge
    unfold markOf at ha
    rw [List.getElem?_eq_none (by omega)] at ha
    simp at ha
  obtain ⟨sp, h1, h2⟩ := joins_rd h
  unfold next
  rw [h1, ok_bind]
  rcases h2 with ⟨e1, e2⟩ | ⟨e1, e2⟩ <;> rw [e1]
  · rw [marked_eq t hal, ok_bind, ha, e2]; simp [marked_eq t hlt, hb]
  · rw [marked_eq t hlt, ok_bind, hb]; simp

/-- the trees of `F` hang under clique `c` -/
def Rep (t : JTree K) : Nat → Forest → Prop
  | _, .nil => True
  | c, .cons s d k r => Joins t s c d ∧ (t.adj d).filter (fun x => x ≠ s) = k.tops ∧ Rep t d k ∧ Rep t c r

theorem Rep.shape {t t' : JTree K} (h : SameShape t t') {c : Nat} {F : Forest} (hr : Rep t c F) : Rep t' c F := by
  induction F generalizing c with
  | nil => trivial
  | cons s d k r ih1 ih2 =>
    obtain ⟨h1, h2, h3, h4⟩ := hr
    refine ⟨?_, ?_, ih1 h3, ih2 h4⟩
    · unfold Joins at h1 ⊢; rw [h.ends]; exact h1
    · rw [h.adj]; exact h2

/-- clique `c`, entered from separator `ps`, has below it the trees `F` -/
structure Sub (t : JTree K) (ps : Option Nat) (c : Nat) (F : Forest) : Prop where
  tops : (t.adj c).filter (fun s => some s ≠ ps) = F.tops
  rep : Rep t c F
  nodup : (c :: F.nodes).Nodup
  lt : ∀ x ∈ c :: F.nodes, x < t.cliques.length

theorem Sub.shape {t t' : JTree K} (h : SameShape t t') {ps : Option Nat} {c : Nat} {F : Forest} (hs : Sub t ps c F) : Sub t' ps c F :=
  ⟨by rw [h.adj]; exact hs.tops, hs.rep.shape h, hs.nodup, by rw [h.len]; exact hs.lt⟩

/-- every separator of the trees joins two of the cliques -/
theorem Rep.joins {t : JTree K} {c : Nat} {F : Forest} (hr : Rep t c F) : ∀ s ∈ F.seps, ∃ a ∈ c :: F.nodes, ∃ b ∈ c :: F.nodes, Joins t s a b := by
  induction F generalizing c with
  | nil => intro s hs; cases hs
  | cons s d k r ih1 ih2 =>
    obtain ⟨h1, _, h3, h4⟩ := hr
    intro x hx
    simp only [Forest.seps, List.mem_cons, List.mem_append] at hx
    simp only [Forest.nodes, List.mem_cons, List.mem_append]
    rcases hx with rfl | hx | hx
    · exact ⟨c, by simp, d, by simp, h1⟩
    · obtain ⟨a, ha, b, hb, hj⟩ := ih1 h3 x hx
      simp only [List.mem_cons] at ha hb
      exact ⟨a, by rcases ha with h | h <;> simp [h], b, by rcases hb with h | h <;> simp [h], hj⟩
    · obtain ⟨a, ha, b, hb, hj⟩ := ih2 h4 x hx
      simp only [List.mem_cons] at ha hb
      exact ⟨a, by rcases ha with h | h <;> simp [h], b, by rcases hb with h | h <;> simp [h], hj⟩

theorem joins_unique {t : JTree K} {s a b a' b' : Nat} (h : Joins t s a b) (h' : Joins t s a' b') :
    (a = a' ∧ b = b') ∨ (a = b' ∧ b = a') := by
  unfold Joins at h h'
  rcases h with h | h <;> rcases h' with h' | h' <;> rw [h] at h' <;>
    simp only [Option.some.injEq, Prod.mk.injEq] at h' <;> obtain ⟨rfl, rfl⟩ := h' <;> simp

theorem Rep.seps_nodup {t : JTree K} {c : Nat} {F : Forest} (hr : Rep t c F) (hn : (c :: F.nodes).Nodup) : F.seps.Nodup := by
  induction F generalizing c with
  | nil => exact List.nodup_nil
  | cons s d k r ih1 ih2 =>
    obtain ⟨h1, _, h3, h4⟩ := hr
    simp only [Forest.nodes, List.nodup_cons, List.mem_cons, List.mem_append, not_or, List.nodup_append] at hn
    obtain ⟨⟨hcd, hck, hcr⟩, ⟨hdk, hdr⟩, hk, hr, hdis⟩ := hn
    simp only [Forest.seps, List.nodup_cons, List.mem_append, not_or, List.nodup_append]
    refine ⟨⟨?_, ?_⟩, ih1 h3 (List.nodup_cons.mpr ⟨hdk, hk⟩), ih2 h4 (List.nodup_cons.mpr ⟨hcr, hr⟩), ?_⟩
    · intro hs
      obtain ⟨a, ha, b, hb, hj⟩ := h3.joins s hs
      simp only [List.mem_cons] at ha hb
      rcases joins_unique h1 hj with ⟨e1, e2⟩ | ⟨e1, e2⟩
      · rcases ha with h | h
        · exact hcd (e1.trans h)
        · exact hck (e1 ▸ h)
      · rcases hb with h | h
        · exact hcd (e1.trans h)
        · exact hck (e1 ▸ h)
    · intro hs
      obtain ⟨a, ha, b, hb, hj⟩ := h4.joins s hs
      simp only [List.mem_cons] at ha hb
      rcases joins_unique h1 hj with ⟨e1, e2⟩ | ⟨e1, e2⟩
      · rcases hb with h | h
        · exact hcd (e2.trans h).symm
        · exact hdr (e2 ▸ h)
      · rcases ha with h | h
        · exact hcd (e2.trans h).symm
        · exact hdr (e2 ▸ h)
    · rintro x hx y hy rfl
      obtain ⟨a, ha, b, hb, hj⟩ := h3.joins x hx
      obtain ⟨a', ha', b', hb', hj'⟩ := h4.joins x hy
      simp only [List.mem_cons] at ha hb ha' hb'
      have key : ∀ z, (z = d ∨ z ∈ k.nodes) → (z = c ∨ z ∈ r.nodes) → False := by
        intro z h h'
        rcases h with rfl | h <;> rcases h' with h' | h'
        · exact hcd h'.symm
        · exact hdr h'
        · exact hck (h' ▸ h)
        · exact hdis z h z h' rfl
      rcases joins_unique hj hj' with ⟨e1, e2⟩ | ⟨e1, e2⟩
      · exact key a ha (e1 ▸ ha')
      · exact key a ha (e1 ▸ hb')

/-- Folding over the separators of a clique visits the subtrees in order; the separator towards the parent is passed over. -/
theorem fold_adj {σ : Type} (f : σ → Nat → Res σ) (ps : Option Nat) (Q : Forest → σ → Prop)
    (hskip : ∀ G st s, ps = some s → Q G st → f st s = ok st)
    (hstep : ∀ s c k r st, Q (.cons s c k r) st → ∃ st', f st s = ok st' ∧ Q r st') :
    ∀ (L : List Nat) (F : Forest) (st : σ), L.filter (fun s => some s ≠ ps) = F.tops → Q F st →
      ∃ st', L.foldlM f st = ok st' ∧ Q .nil st' := by
  intro L
  induction L with
  | nil =>
    intro F st h hq
    cases F with
    | nil => exact ⟨st, rfl, hq⟩
    | cons s c k r => simp [Forest.tops] at h
  | cons x L ih =>
    intro F st h hq
    rw [List.filter_cons] at h
    by_cases hx : some x ≠ ps
    · rw [if_pos (by simpa using hx)] at h
      cases F with
      | nil => simp [Forest.tops] at h
      | cons s c k r =>
        simp only [Forest.tops, List.cons.injEq] at h
        obtain ⟨st1, h1, h2⟩ := hstep s c k r st hq
        obtain ⟨st2, h3, h4⟩ := ih r st1 h.2 h2
        exact ⟨st2, by rw [List.foldlM_cons, h.1, h1, ok_bind, h3], h4⟩
    · rw [if_neg (by simpa using hx)] at h
      obtain ⟨st2, h3, h4⟩ := ih F st h hq
      refine ⟨st2, ?_, h4⟩
      rw [List.foldlM_cons, hskip F st x (by simpa using (not_not.mp hx).symm) hq, ok_bind, h3]

/-- body of the loop of `connected` -/
def connStep (fuel two : Nat) (st : Bool × JTree K) (s : Nat) : Res (Bool × JTree K) := do
  if st.1 then ok st
  else do
    let n ← st.2.next s
    match n with
    | some d => connected fuel st.2 d two
    | none => ok st

theorem connected_succ (fuel : Nat) (t : JTree K) (one two : Nat) (h : one < t.cliques.length) {t1 : JTree K}
    (hm : t.setMark one true = ok t1) :
    connected (fuel + 1) t one two = if one = two then ok (true, t1) else (t.adj one).foldlM (connStep fuel two) (false, t1) := by
  have e : t.adj one = t.cliques[one].sepsets := by unfold adj; rw [List.getElem?_eq_getElem h]
  rw [e]
  conv => lhs; unfold connected
  rw [rd_lt h, ok_bind, hm, ok_bind]
  rfl

theorem connected_spec (fuel : Nat) : ∀ (t : JTree K) (ps : Option Nat) (c two : Nat) (F : Forest), Sub t ps c F → F.nodes.length < fuel →
    (∀ x ∈ c :: F.nodes, t.markOf x = false) → (∀ s, ps = some s → ∃ p, Joins t s p c ∧ t.markOf p = true) →
    ∃ b t', connected fuel t c two = ok (b, t') ∧ t'.bare = t.bare ∧ (b = true ↔ two ∈ c :: F.nodes) ∧
      (b = false → ∀ x, t'.markOf x = (t.markOf x || decide (x ∈ c :: F.nodes))) := by
  induction fuel with
  | zero => intro t ps c two F _ h; omega
  | succ fuel ih =>
    intro t ps c two F hsub hfuel hmark hps
    have hc := hsub.lt c (List.mem_cons_self ..)
    obtain ⟨t1, m1, m2, m3, _⟩ := setMark_eq t c true hc
    rw [connected_succ fuel t c two hc m1]
    by_cases htwo : c = two
    · rw [if_pos htwo]
      exact ⟨true, t1, rfl, m2, by simp [htwo], by simp⟩
    · rw [if_neg htwo]
      obtain ⟨⟨b, t'⟩, r1, r2⟩ := fold_adj (connStep fuel two) ps
        (fun G (st : Bool × JTree K) => st.2.bare = t.bare ∧ ((st.1 = true ∧ two ∈ c :: F.nodes) ∨ (st.1 = false ∧ Rep t c G ∧
          ∃ done, F.nodes = done ++ G.nodes ∧ two ∉ c :: done ∧ ∀ x, st.2.markOf x = (t.markOf x || decide (x ∈ c :: done)))))
        (by
          rintro G ⟨b, s⟩ x hx ⟨hb, h⟩
          unfold connStep
          simp only at hb h ⊢
          rcases h with ⟨h, _⟩ | ⟨h, _, done, _, _, hm⟩
          · simp [h]
          · obtain ⟨p, hj, hp⟩ := hps x hx
            have hsh := shape_of_bare hb
            have hj' : Joins s x p c := by unfold Joins at hj ⊢; rw [hsh.ends]; exact hj
            rw [next_none hj' (by rw [hm, hp]; rfl) (by rw [hm]; simp)]
            simp [h])
        (by
          rintro s d k r ⟨b, u⟩ ⟨hb, h⟩
          unfold connStep
          simp only at hb h ⊢
          have hsh := shape_of_bare hb
          rcases h with ⟨h, h2⟩ | ⟨h, hrep, done, hdone, h2, hm⟩
          · exact ⟨(b, u), by simp [h], hb, Or.inl ⟨h, h2⟩⟩
          · obtain ⟨hj, htop, hk, hr⟩ := hrep
            have hnd := hsub.nodup
            simp only [Forest.nodes] at hdone
            have hmem : ∀ x ∈ d :: k.nodes, x ∈ F.nodes := by
              intro x hx; rw [hdone]; simp only [List.mem_cons, List.mem_append] at hx ⊢; tauto
            rw [hdone] at hnd
            simp only [List.nodup_cons, List.mem_append, List.mem_cons, not_or, List.nodup_append] at hnd
            obtain ⟨⟨hn1, hn2, hn3, hn4⟩, hn5, ⟨⟨hn6, hn7⟩, hn8, hn9, hn10⟩, hn11⟩ := hnd
            have hj' : Joins u s c d := by unfold Joins at hj ⊢; rw [hsh.ends]; exact hj
            have hud : ∀ x ∈ d :: k.nodes, u.markOf x = false := by
              intro x hx
              rw [hm, hmark x (List.mem_cons_of_mem _ (hmem x hx))]
              simp only [Bool.false_or, decide_eq_false_iff_not, List.mem_cons, not_or]
              simp only [List.mem_cons] at hx
              refine ⟨?_, ?_⟩
              · rintro rfl
                rcases hx with hx | hx
                · exact hn2 hx
                · exact hn3 hx
              · intro hxd
                refine hn11 x hxd x ?_ rfl
                rcases hx with hx | hx
                · exact Or.inl hx
                · exact Or.inr (Or.inl hx)
            have huc : u.markOf c = true := by rw [hm]; simp
            rw [next_some hj' huc (hud d (List.mem_cons_self ..)) (by
              rw [hsh.len]; exact hsub.lt d (List.mem_cons_of_mem _ (hmem d (List.mem_cons_self ..))))]
            have hsubk : Sub t (some s) d k := by
              refine ⟨?_, hk, List.nodup_cons.mpr ⟨hn6, hn8⟩, fun x hx => hsub.lt x (List.mem_cons_of_mem _ (hmem x hx))⟩
              rw [← htop]
              apply List.filter_congr
              intro x _; simp
            have hlen : k.nodes.length < fuel := by
              have := congrArg List.length hdone
              simp at this; omega
            obtain ⟨b', t', a1, a2, a3, a4⟩ := ih u (some s) d two k (hsubk.shape hsh) hlen hud
              (by rintro _ rfl'; cases rfl'; exact ⟨c, hj', huc⟩)
            refine ⟨(b', t'), by simp [h, a1], a2.trans hb, ?_⟩
            cases b' with
            | true =>
              left
              exact ⟨rfl, List.mem_cons_of_mem _ (hmem two (a3.mp rfl))⟩
            | false =>
              right
              have hnot : two ∉ d :: k.nodes := fun hh => by simpa using a3.mpr hh
              refine ⟨rfl, hr, done ++ (d :: k.nodes), by rw [hdone]; simp, ?_, ?_⟩
              · simp only [List.mem_cons, List.mem_append, not_or] at h2 hnot ⊢
                exact ⟨h2.1, h2.2, hnot⟩
              · intro x
                rw [a4 rfl x, hm x]
                simp only [List.mem_cons, List.mem_append, Bool.or_assoc]
                congr 1
                rw [← Bool.decide_or]
                congr 1
                simp only [or_assoc])
        (t.adj c) F (false, t1) hsub.tops
        ⟨m2, Or.inr ⟨rfl, hsub.rep, [], by simp, by simpa using fun e => htwo e.symm, by
          intro x; rw [m3]
          by_cases e : x = c
          · simp [e]
          · simp [e]⟩⟩
      refine ⟨b, t', r1, r2.1, ?_, ?_⟩
      · rcases r2.2 with ⟨h, h2⟩ | ⟨h, _, done, hdone, h2, _⟩
        · simp only at h; exact ⟨fun _ => h2, fun _ => h⟩
        · simp only at h
          simp only [Forest.nodes, List.append_nil] at hdone
          rw [hdone, h]; simp only [Bool.false_eq_true, false_iff]; exact h2
      · intro hb x
        rcases r2.2 with ⟨h, h2⟩ | ⟨h, _, done, hdone, h2, hm⟩
        · simp only at h; rw [h] at hb; cases hb
        · simp only [Forest.nodes, List.append_nil] at hdone
          rw [hdone]; exact hm x

end JTree
end Nip
