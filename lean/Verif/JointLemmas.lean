import Verif.Joint
import Verif.WeightLemmas
import Verif.SepsetLemmas

/-!
# Lemmas about `nip_gather_joint_probability`
-/

namespace Nip

open Res Spec

set_option linter.unusedSectionVars false

/-! ## Shapes are kept by whatever succeeds -/

theorem loop_keeps {σ : Type} (P : σ → Prop) {f : Nat → σ → Res σ} (hf : ∀ i a b, f i a = ok b → P a → P b) (n : Nat) :
    ∀ {a b : σ}, loop n f a = ok b → P a → P b := by
  induction n with
  | zero => intro a b h ha; cases h; exact ha
  | succ n ih =>
    intro a b h ha
    rw [loop_succ] at h
    cases h1 : loop n f a with
    | ub => rw [h1] at h; cases h
    | ok c =>
      rw [h1] at h
      exact hf n c b h (ih h1 ha)

theorem bind_ok {α β : Type} {r : Res α} {f : α → Res β} {b : β} (h : (r >>= f) = ok b) : ∃ a, r = ok a ∧ f a = ok b := by
  cases r with
  | ub => cases h
  | ok a => exact ⟨a, rfl, h⟩

theorem wr_length {α : Type} {a b : List α} {i : Nat} {v : α} (h : wr a i v = ok b) : b.length = a.length := by
  by_cases hi : i < a.length
  · rw [wr_lt hi] at h; cases h; simp
  · rw [wr_ge (by omega)] at h; cases h

variable {K : Type} [Field K] [LinearOrder K]

theorem two_loops {p q : Potential K} {e : Nat} {b : Bool} {c : Prop} [Decidable c] {n : Nat} {f g : Nat → List K → Res (List K)}
    (h : (if b = true then ok (EINVAL, p) else if c then (do
        let t ← loop n f p.data
        ok (0, { p with data := t })) else (do
        let t ← loop n g p.data
        ok (0, { p with data := t }))) = ok (e, q))
    (hf : ∀ i a b, f i a = ok b → b.length = a.length) (hg : ∀ i a b, g i a = ok b → b.length = a.length) :
    q.card = p.card ∧ q.data.length = p.data.length := by
  split at h
  · cases h; exact ⟨rfl, rfl⟩
  · split at h
    · obtain ⟨t, h1, h2⟩ := bind_ok h
      cases h2
      exact ⟨rfl, loop_keeps (fun l => l.length = p.data.length) (fun i a b hab ha => (hf i a b hab).trans ha) _ h1 rfl⟩
    · obtain ⟨t, h1, h2⟩ := bind_ok h
      cases h2
      exact ⟨rfl, loop_keeps (fun l => l.length = p.data.length) (fun i a b hab ha => (hg i a b hab).trans ha) _ h1 rfl⟩

theorem update_keeps {num den : Option (Potential K)} {p q : Potential K} {m : List Nat} {e : Nat}
    (h : Potential.update num den p m = ok (e, q)) : q.card = p.card ∧ q.data.length = p.data.length := by
  unfold Potential.update at h
  cases num with
  | none =>
    cases den with
    | none => exact two_loops (b := true) h (fun _ _ _ h => by cases h; rfl) (fun _ _ _ h => by
        obtain ⟨_, _, h⟩ := bind_ok h
        obtain ⟨_, _, h⟩ := bind_ok h
        cases h; rfl)
    | some d =>
      refine two_loops (b := false) h (fun _ _ _ h => ?_) (fun _ _ _ h => ?_)
      · obtain ⟨_, h1, h⟩ := bind_ok h
        obtain ⟨_, _, h⟩ := bind_ok h
        obtain ⟨_, _, h⟩ := bind_ok h
        cases h1
        exact wr_length h
      · obtain ⟨_, _, h⟩ := bind_ok h
        obtain ⟨_, _, h⟩ := bind_ok h
        obtain ⟨_, h1, h⟩ := bind_ok h
        obtain ⟨_, _, h⟩ := bind_ok h
        obtain ⟨_, _, h⟩ := bind_ok h
        obtain ⟨_, _, h⟩ := bind_ok h
        cases h1
        exact wr_length h
  | some n =>
    cases den with
    | none =>
      refine two_loops (b := false) h (fun _ _ _ h => ?_) (fun _ _ _ h => ?_)
      · obtain ⟨_, _, h⟩ := bind_ok h
        obtain ⟨_, _, h⟩ := bind_ok h
        obtain ⟨_, h1, h⟩ := bind_ok h
        cases h
        exact wr_length h1
      · obtain ⟨_, _, h⟩ := bind_ok h
        obtain ⟨_, _, h⟩ := bind_ok h
        obtain ⟨_, _, h⟩ := bind_ok h
        obtain ⟨_, _, h⟩ := bind_ok h
        obtain ⟨_, _, h⟩ := bind_ok h
        obtain ⟨_, h1, h⟩ := bind_ok h
        cases h
        exact wr_length h1
    | some d =>
      refine two_loops (b := (n.dim != d.dim || decide (n.dim > p.dim))) h (fun _ _ _ h => ?_) (fun _ _ _ h => ?_)
      · obtain ⟨_, _, h⟩ := bind_ok h
        obtain ⟨_, _, h⟩ := bind_ok h
        obtain ⟨_, h1, h⟩ := bind_ok h
        obtain ⟨_, _, h⟩ := bind_ok h
        obtain ⟨_, _, h⟩ := bind_ok h
        exact (wr_length h).trans (wr_length h1)
      · obtain ⟨_, _, h⟩ := bind_ok h
        obtain ⟨_, _, h⟩ := bind_ok h
        obtain ⟨_, _, h⟩ := bind_ok h
        obtain ⟨_, _, h⟩ := bind_ok h
        obtain ⟨_, _, h⟩ := bind_ok h
        obtain ⟨_, h1, h⟩ := bind_ok h
        obtain ⟨_, _, h⟩ := bind_ok h
        obtain ⟨_, _, h⟩ := bind_ok h
        obtain ⟨_, _, h⟩ := bind_ok h
        exact (wr_length h).trans (wr_length h1)

theorem choose_short {source mapping : List Nat} {n : Nat} (h : mapping.length < n) : Potential.choose source mapping n = ub := by
  have : ∀ k, mapping.length < k → Potential.choose source mapping k = ub := by
    intro k
    induction k with
    | zero => intro hk; omega
    | succ k ih =>
      intro hk
      unfold Potential.choose at ih ⊢
      rw [loop_succ]
      by_cases hk' : mapping.length < k
      · rw [ih hk']; rfl
      · have : mapping.length = k := by omega
        cases hl : loop k (fun i acc => do
            let m ← rd mapping i
            let v ← rd source m
            ok (acc ++ [v])) [] with
        | ub => rfl
        | ok a =>
          show (rd mapping k >>= _) = _
          rw [rd_ge (by omega)]; rfl
  exact this n h

theorem loop_first_ub {σ : Type} {f : Nat → σ → Res σ} {a : σ} {n : Nat} (hn : 0 < n) (h : f 0 a = ub) : loop n f a = ub := by
  obtain ⟨m, rfl⟩ := Nat.exists_eq_succ_of_ne_zero (by omega : n ≠ 0)
  clear hn
  induction m with
  | zero => rw [loop_succ]; exact h
  | succ m ih => rw [loop_succ]; rw [ih]; rfl

/-- a table with more dimensions than the mapping has places -/
theorem update_short {n p : Potential K} {m : List Nat} (hm : m.length < n.dim) (hp : 0 < p.size) :
    Potential.update (some n) none p m = ub := by
  unfold Potential.update
  simp only [Bool.false_eq_true, if_false]
  rw [if_neg (by omega)]
  have : loop p.size (fun i (t : List K) => do
        let idx ← p.indicesOf i
        let sidx ← Potential.choose idx m n.dim
        let k ← Potential.pointer n.card sidx
        let a ← rd t i
        let b ← rd n.data k
        let t ← wr t i (a * b)
        ok t) p.data = ub := by
    refine loop_first_ub hp ?_
    cases p.indicesOf 0 with
    | ub => rfl
    | ok idx => show (Potential.choose idx m n.dim >>= _) = _; rw [choose_short hm]; rfl
  exact Eq.trans (congrArg (fun r => Res.bind r _) this) rfl

theorem takeVars_length {c : List (Option Nat)} {k : Nat} {l : List Nat} (h : takeVars c k = ok l) : l.length = k := by
  unfold takeVars at h
  induction k generalizing l with
  | zero => cases h; rfl
  | succ k ih =>
    rw [loop_succ] at h
    obtain ⟨a, h1, h2⟩ := bind_ok h
    obtain ⟨v, _, h3⟩ := bind_ok h2
    cases v with
    | none => cases h3
    | some v => cases h3; rw [List.length_append, ih h1]; rfl

theorem mapper_length {set subset : List Nat} {e : Nat} {m : Option (List Nat)} (h : mapper set subset = ok (e, m)) :
    (m.getD []).length ≤ subset.length := by
  unfold mapper at h
  split at h
  · cases h; exact Nat.zero_le _
  · split at h
    · cases h; exact Nat.zero_le _
    · obtain ⟨a, h1, h2⟩ := bind_ok h
      cases h2
      have := loop_keeps (fun l : List Nat => l.length = subset.length) (f := mapperStep set subset) (by
        intro i a b hab ha
        unfold mapperStep at hab
        obtain ⟨_, _, hab⟩ := bind_ok hab
        obtain ⟨f, _, hab⟩ := bind_ok hab
        cases f with
        | none => cases hab; exact ha
        | some j => exact (wr_length hab).trans ha) _ h1 (by simp)
      exact le_of_eq this

theorem union_count {a b : List Nat} {c : List (Option Nat)} {n : Nat} (h : variableUnion a b = ok (c, n)) :
    n = a.length + b.length - (a.filter (· ∈ b)).length := by
  unfold variableUnion at h
  split at h
  · rename_i h0
    cases h
    have := List.length_filter_le (fun x => decide (x ∈ b)) a
    omega
  · rw [countCommon_eq] at h
    obtain ⟨k, h1, h2⟩ := bind_ok h
    cases h1
    simp only at h2
    split at h2
    · cases h2; omega
    · obtain ⟨_, _, h2⟩ := bind_ok h2
      obtain ⟨_, _, h2⟩ := bind_ok h2
      cases h2; rfl

theorem new_dim {cards : List Nat} {n : Nat} {p : Potential K} (hn : n ≤ cards.length)
    (h : Potential.new cards (n : Int) none = ok (some p)) : p.card = cards.take n := by
  unfold Potential.new at h
  rw [if_neg (by omega)] at h
  obtain ⟨_, _, h⟩ := bind_ok h
  cases h
  rfl

namespace JTree

/-- the recursive calls give tables with as many dimensions as there are variables wanted, plus those of the separator -/
def Big (vars : List Nat) (deeper : JTree K → Nat → List Nat → Res (Option (Potential K) × JTree K)) : Prop :=
  ∀ t c is p t', deeper t c is = ok (some p, t') → p.dim = vars.length + is.length

theorem branch_keeps {deeper : JTree K → Nat → List Nat → Res (Option (Potential K) × JTree K)} {vars prodVars : List Nat} {s c : Nat}
    {prod q : Potential K} {t t' : JTree K} (h : gatherBranch deeper vars prodVars s c prod t = ok (some q, t')) : q.card = prod.card := by
  unfold gatherBranch at h
  obtain ⟨sp, _, h⟩ := bind_ok h
  obtain ⟨⟨_, m⟩, _, h⟩ := bind_ok h
  obtain ⟨⟨e, p1⟩, h1, h⟩ := bind_ok h
  simp only at h
  split at h
  · cases h
  · obtain ⟨⟨mi, n⟩, _, h⟩ := bind_ok h
    simp only at h
    split at h
    · cases h
    · obtain ⟨mi', _, h⟩ := bind_ok h
      obtain ⟨⟨msg, t1⟩, _, h⟩ := bind_ok h
      obtain ⟨⟨mv, nmsg⟩, _, h⟩ := bind_ok h
      obtain ⟨mv', _, h⟩ := bind_ok h
      obtain ⟨⟨_, m'⟩, _, h⟩ := bind_ok h
      obtain ⟨⟨e', p2⟩, h2, h⟩ := bind_ok h
      simp only at h
      split at h
      · cases h
      · cases h
        rw [(update_keeps h2).1, (update_keeps h1).1]

theorem sepset_keeps {deeper : JTree K → Nat → List Nat → Res (Option (Potential K) × JTree K)} {vars prodVars : List Nat} {s : Nat}
    {st st' : Option (Potential K) × JTree K} (cards : List Nat) (h : gatherSepset deeper vars prodVars st s = ok st')
    (hst : ∀ q, st.1 = some q → q.card = cards) : ∀ q, st'.1 = some q → q.card = cards := by
  unfold gatherSepset at h
  split at h
  · cases h; exact hst
  · rename_i prod hp
    obtain ⟨sp, _, h⟩ := bind_ok h
    obtain ⟨m1, _, h⟩ := bind_ok h
    obtain ⟨st1, h1, h⟩ := bind_ok h
    have hst1 : ∀ q, st1.1 = some q → q.card = cards := by
      split at h1
      · intro q hq
        obtain ⟨o, t1⟩ := st1
        cases hq
        rw [branch_keeps h1]; exact hst _ hp
      · cases h1; exact hst
    split at h
    · cases h; exact hst1
    · rename_i prod1 hp1
      obtain ⟨m2, _, h⟩ := bind_ok h
      split at h
      · intro q hq
        obtain ⟨o, t1⟩ := st'
        cases hq
        rw [branch_keeps h]; exact hst1 _ hp1
      · cases h; exact hst1

theorem fold_keeps {deeper : JTree K → Nat → List Nat → Res (Option (Potential K) × JTree K)} {vars prodVars : List Nat} (cards : List Nat)
    (l : List Nat) : ∀ {st st' : Option (Potential K) × JTree K}, l.foldlM (gatherSepset deeper vars prodVars) st = ok st' →
    (∀ q, st.1 = some q → q.card = cards) → ∀ q, st'.1 = some q → q.card = cards := by
  induction l with
  | nil => intro st st' h hst; cases h; exact hst
  | cons s l ih =>
    intro st st' h hst
    rw [List.foldlM_cons] at h
    obtain ⟨st1, h1, h2⟩ := bind_ok h
    exact ih h2 (sepset_keeps cards h1 hst)

theorem result_dim {card : Nat → Nat} {vars isect cards : List Nat} {prod p : Potential K} (hp : prod.card = cards)
    (h : gatherResult card vars isect cards prod = ok (some p)) : p.dim = vars.length + isect.length := by
  unfold gatherResult at h
  split at h
  · rename_i he
    cases h
    unfold Potential.dim
    rw [hp, he]
  · obtain ⟨c1, h1, h⟩ := bind_ok h
    obtain ⟨c2, h2, h⟩ := bind_ok h
    obtain ⟨o, h3, h⟩ := bind_ok h
    cases o with
    | none => cases h
    | some sum =>
      obtain ⟨⟨e, q⟩, h4, h⟩ := bind_ok h
      simp only at h
      split at h
      · cases h
      · cases h
        have hq : p.card = sum.card := by
          unfold Potential.generalMarginalise at h4
          split at h4
          · cases h4; rfl
          · split at h4
            · obtain ⟨_, _, h4⟩ := bind_ok h4
              obtain ⟨_, _, h4⟩ := bind_ok h4
              cases h4; rfl
            · obtain ⟨_, _, h4⟩ := bind_ok h4
              cases h4; rfl
        unfold Potential.new at h3
        rw [if_neg (by omega)] at h3
        obtain ⟨d, h5, h3⟩ := bind_ok h3
        cases h3
        show p.card.length = _
        rw [hq]
        show (c2.take _).length = _
        rw [List.length_take, Int.toNat_natCast, min_eq_left]
        -- the size could be computed, so the array is long enough
        rw [Int.toNat_natCast] at h5
        unfold Potential.sizeOf at h5
        by_contra hlt
        have : ∀ k, c2.length < k → loop k (fun i d => do
            let c ← rd c2 i
            ok (d * c)) 1 = ub := by
          intro k
          induction k with
          | zero => intro hk; omega
          | succ k ih =>
            intro hk
            rw [loop_succ]
            by_cases hk' : c2.length < k
            · rw [ih hk']; rfl
            · cases loop k (fun i d => do
                let c ← rd c2 i
                ok (d * c)) 1 with
              | ub => rfl
              | ok a => show (rd c2 k >>= _) = _; rw [rd_ge (by omega)]; rfl
        rw [this _ (by omega)] at h5
        cases h5

theorem gather_big {card : Nat → Nat} {vars : List Nat} (hv : vars ≠ []) (fuel : Nat) : Big (K := K) vars (gather card vars fuel) := by
  intro t c is p t' h
  cases fuel with
  | zero => cases h
  | succ fuel =>
    unfold gather at h
    rw [if_neg (by simpa using hv)] at h
    obtain ⟨cl, _, h⟩ := bind_ok h
    obtain ⟨t1, _, h⟩ := bind_ok h
    obtain ⟨⟨pv, nprod⟩, _, h⟩ := bind_ok h
    obtain ⟨prodVars, h1, h⟩ := bind_ok h
    obtain ⟨prod, h2, h⟩ := bind_ok h
    obtain ⟨⟨_, m⟩, _, h⟩ := bind_ok h
    simp only at h
    cases prod with
    | none => cases h
    | some prod =>
      cases m with
      | none => cases h
      | some m =>
        obtain ⟨⟨e, prod1⟩, h3, h⟩ := bind_ok h
        simp only at h
        split at h
        · cases h
        · obtain ⟨⟨o, t2⟩, h4, h⟩ := bind_ok h
          cases o with
          | none => cases h
          | some prod2 =>
            obtain ⟨r, h5, h⟩ := bind_ok h
            cases h
            have hl : prodVars.length = nprod := takeVars_length h1
            have hc : prod.card = prodVars.map card := by
              rw [new_dim (by simp [hl]) h2, List.take_of_length_le (by simp [hl])]
            have hc2 : prod2.card = prodVars.map card := fold_keeps (prodVars.map card) _ h4 (by
              intro q hq; cases hq; rw [(update_keeps h3).1, hc]) _ rfl
            exact result_dim hc2 h5

/-- No branch ever succeeds. -/
theorem branch_fails {deeper : JTree K → Nat → List Nat → Res (Option (Potential K) × JTree K)} {vars prodVars : List Nat} {s c : Nat}
    {prod q : Potential K} {t t' : JTree K} (hd : Big vars deeper) (hp : 0 < prod.size) :
    gatherBranch deeper vars prodVars s c prod t ≠ ok (some q, t') := by
  intro h
  unfold gatherBranch at h
  obtain ⟨sp, _, h⟩ := bind_ok h
  obtain ⟨⟨_, m⟩, _, h⟩ := bind_ok h
  obtain ⟨⟨e, p1⟩, h1, h⟩ := bind_ok h
  simp only at h
  split at h
  · cases h
  · rw [variableIsect_eq] at h
    rw [ok_bind] at h
    simp only at h
    split at h
    · cases h
    · rename_i hn
      rw [takeVars_eq, ok_bind] at h
      obtain ⟨⟨msg, t1⟩, h2, h⟩ := bind_ok h
      obtain ⟨⟨mv, nmsg⟩, h3, h⟩ := bind_ok h
      obtain ⟨mv', h4, h⟩ := bind_ok h
      obtain ⟨⟨_, m'⟩, h5, h⟩ := bind_ok h
      obtain ⟨⟨e', p2⟩, h6, h⟩ := bind_ok h
      cases msg with
      | none =>
        have : Potential.update (none : Option (Potential K)) none p1 (m'.getD []) = ok (EINVAL, p1) := rfl
        simp only at h6
        rw [this] at h6
        cases h6
        simp only at h
        rw [if_pos (by decide)] at h
        cases h
      | some msg =>
        have hdim := hd _ _ _ _ _ h2
        have hcnt := union_count h3
        have hlen := takeVars_length h4
        have hml := mapper_length h5
        -- a variable of the separator is among the variables wanted
        have hpos : 0 < (vars.filter (· ∈ sp.vars.filter (· ∈ vars))).length := by
          obtain ⟨x, hx⟩ := List.exists_mem_of_length_pos (Nat.pos_of_ne_zero hn)
          have hx' := List.mem_filter.1 hx
          have hxv : x ∈ vars := by simpa using hx'.2
          exact List.length_pos_of_mem (List.mem_filter.2 ⟨hxv, by simpa using ⟨hx'.1, hxv⟩⟩)
        have hle := List.length_filter_le (fun x => decide (x ∈ sp.vars.filter (· ∈ vars))) vars
        have hp1 : 0 < p1.size := by
          show 0 < p1.data.length
          rw [(update_keeps h1).2]; exact hp
        simp only at h6
        rw [update_short (by rw [hdim]; omega) hp1] at h6
        cases h6

/-- After giving up nothing happens. -/
theorem fold_none {deeper : JTree K → Nat → List Nat → Res (Option (Potential K) × JTree K)} {vars prodVars : List Nat} (l : List Nat)
    (t : JTree K) : l.foldlM (gatherSepset deeper vars prodVars) (none, t) = ok (none, t) := by
  induction l with
  | nil => rfl
  | cons s l ih => rw [List.foldlM_cons]; exact ih

/-- A clique with a neighbour that has not been visited. -/
theorem gather_fails {card : Nat → Nat} {vars : List Nat} (hv : vars ≠ []) (fuel : Nat) {t : JTree K} {c s : Nat} {cl : Clique K} {l : List Nat}
    {isect : List Nat} (hc : t.cliques[c]? = some cl) (hs : cl.sepsets = s :: l) {sp : Sepset K} (hsp : t.sepsets[s]? = some sp) {d : Nat}
    (hends : sp.first = d ∧ sp.second = c ∨ sp.first = c ∧ sp.second = d) (hd : d < t.cliques.length) (hdc : d ≠ c)
    (hmark : t.markOf d = false) (hpos : ∀ v ∈ vars, 0 < card v) (hclpos : ∀ v ∈ cl.vars, 0 < card v) (hvn : vars.Nodup) (hcn : cl.vars.Nodup)
    {p : Potential K} {t' : JTree K} : gather card vars fuel t c isect ≠ ok (some p, t') := by
  intro h
  cases fuel with
  | zero => cases h
  | succ fuel =>
    unfold gather at h
    rw [if_neg (by simpa using hv)] at h
    have hcl : c < t.cliques.length := (List.getElem?_eq_some_iff.1 hc).1
    rw [rd_eq_ok.2 hc, ok_bind] at h
    obtain ⟨t1, m1, _, m3, m4⟩ := setMark_eq t c true hcl
    rw [m1, ok_bind, variableUnion_eq _ _ hvn hcn, ok_bind] at h
    simp only at h
    rw [takeVars_eq, ok_bind] at h
    obtain ⟨prod, h2, h⟩ := bind_ok h
    obtain ⟨⟨_, m⟩, _, h⟩ := bind_ok h
    simp only at h
    cases prod with
    | none => cases h
    | some prod =>
      cases m with
      | none => cases h
      | some m =>
        obtain ⟨⟨e, prod1⟩, h3, h⟩ := bind_ok h
        simp only at h
        split at h
        · cases h
        · obtain ⟨⟨o, t2⟩, h4, h⟩ := bind_ok h
          have hsize : 0 < prod1.size := by
            show 0 < prod1.data.length
            rw [(update_keeps h3).2]
            have hl : ((vars ++ cl.vars.filter (· ∉ vars)).length : Int) = (((vars ++ cl.vars.filter (· ∉ vars)).map card).length : Int) := by simp
            rw [hl, Potential.new_none] at h2
            cases h2
            rw [List.length_replicate]
            refine prod_pos ?_
            intro k hk
            obtain ⟨v, hv, rfl⟩ := List.mem_map.1 hk
            rcases List.mem_append.1 hv with hv | hv
            · exact hpos v hv
            · exact hclpos v (List.mem_filter.1 hv).1
          -- the first separator
          have hno : o = none := by
            rw [hs, List.foldlM_cons] at h4
            obtain ⟨st1, h5, h6⟩ := bind_ok h4
            have hst : st1.1 = none := by
              have hmk : ∀ x, x < t.cliques.length → t1.marked x = ok (t1.markOf x) := by
                intro x hx
                have hx' : x < t1.cliques.length := by rw [m4]; simpa using hx
                unfold marked markOf
                rw [rd_lt hx', List.getElem?_eq_getElem hx']; rfl
              have hsp1 : t1.sepsets[s]? = some sp := by rw [m4]; exact hsp
              unfold gatherSepset at h5
              simp only at h5
              rw [rd_eq_ok.2 hsp1, ok_bind] at h5
              rcases hends with ⟨e1, e2⟩ | ⟨e1, e2⟩
              · rw [e1, hmk d hd, ok_bind, m3, if_neg hdc, hmark] at h5
                simp only [Bool.not_false, if_true] at h5
                obtain ⟨st2, h7, h8⟩ := bind_ok h5
                obtain ⟨o2, t3⟩ := st2
                cases o2 with
                | none => cases h8; rfl
                | some q => exact absurd h7 (branch_fails (gather_big hv fuel) hsize)
              · rw [e1, hmk c hcl, ok_bind, m3, if_pos rfl] at h5
                simp only [Bool.not_true, Bool.false_eq_true, if_false, ok_bind] at h5
                rw [e2, hmk d hd, ok_bind, m3, if_neg hdc, hmark] at h5
                simp only [Bool.not_false, if_true] at h5
                obtain ⟨o2, t3⟩ := st1
                cases o2 with
                | none => rfl
                | some q => exact absurd h5 (branch_fails (gather_big hv fuel) hsize)
            obtain ⟨o1, t3⟩ := st1
            cases hst
            rw [fold_none] at h6
            cases h6; rfl
          subst hno
          cases h

end JTree
end Nip

namespace Nip

open Res Spec

set_option linter.unusedSectionVars false

variable {K : Type} [Field K] [LinearOrder K] {card : Nat → Nat}

theorem places_front {vs rest : List Nat} (hn : vs.Nodup) : places (vs ++ rest) vs = List.range vs.length := by
  apply List.ext_getElem
  · simp [places]
  · intro i h1 h2
    have hi : i < vs.length := by simpa [places] using h1
    have e : (places (vs ++ rest) vs)[i] = (vs ++ rest).findIdx (fun y => vs[i] == y) := by simp [places]
    rw [e, List.getElem_range]
    have hex : ∃ y ∈ vs, (vs[i] == y) = true := ⟨vs[i], List.getElem_mem _, by simp⟩
    rw [List.findIdx_append, if_pos (List.findIdx_lt_length_of_exists hex)]
    have hlt := List.findIdx_lt_length_of_exists hex
    have := List.findIdx_getElem (w := hlt)
    simp only [beq_iff_eq] at this
    exact (List.Nodup.getElem_inj_iff hn).1 this.symm

/-- writing the numbers that are there already -/
theorem rewrite_cards (vars rest : List Nat) (n : Nat) (hn : n ≤ vars.length) : loop n (fun i c => do
      let v ← rd vars i
      wr c i (card v)) ((vars ++ rest).map card) = ok ((vars ++ rest).map card) := by
  induction n with
  | zero => rfl
  | succ n ih =>
    rw [loop_succ, ih (by omega)]
    show (rd vars n >>= _) = _
    rw [rd_lt (by omega), ok_bind, wr_lt (by simp; omega)]
    congr 1
    apply List.ext_getElem
    · simp
    · intro i h1 h2
      rw [List.getElem_set]
      split
      · rename_i e
        subst e
        rw [List.getElem_map, List.getElem_append_left (by omega)]
      · rfl

theorem new_take {cards : List Nat} {n : Nat} (hn : n ≤ cards.length) :
    Potential.new (K := K) cards (n : Int) none = ok (some ⟨cards.take n, List.replicate (cards.take n).prod 1⟩) := by
  unfold Potential.new
  rw [if_neg (by omega), Int.toNat_natCast]
  simp [Potential.sizeOf_eq cards hn]

namespace JTree

theorem gather_single [IsStrictOrderedRing K] {vars : List Nat} (hv : vars ≠ []) (hvn : vars.Nodup) (fuel : Nat) {t : JTree K} {c : Nat} {cl : Clique K}
    (hc : t.cliques[c]? = some cl) (hs : cl.sepsets = []) (hsub : vars ⊆ cl.vars) (hn : cl.vars.Nodup) (hp : TableOn card cl.vars cl.p) :
    ∃ p t', gather card vars (fuel + 1) t c [] = ok (some p, t') ∧ t'.bare = t.bare ∧ TableOn card vars p ∧
      ∀ x, sem card vars p x = sumOver card (without cl.vars vars) (sem card cl.vars cl.p) x := by
  have hcl : c < t.cliques.length := (List.getElem?_eq_some_iff.1 hc).1
  obtain ⟨t1, m1, m2, _, _⟩ := setMark_eq t c true hcl
  obtain ⟨pv, hpv⟩ : ∃ pv, pv = vars ++ without cl.vars vars := ⟨_, rfl⟩
  have hpv' : vars ++ cl.vars.filter (· ∉ vars) = pv := hpv.symm
  have hmem : ∀ v, v ∈ pv ↔ v ∈ cl.vars := by
    intro v
    rw [hpv, List.mem_append, mem_without]
    constructor
    · rintro (h | h)
      · exact hsub h
      · exact h.1
    · intro h
      by_cases e : v ∈ vars
      · exact Or.inl e
      · exact Or.inr ⟨h, e⟩
  have hpn : pv.Nodup := by
    rw [hpv]
    refine List.nodup_append.mpr ⟨hvn, hn.filter _, ?_⟩
    intro a ha b hb e
    subst e
    exact (mem_without.mp hb).2 ha
  have hpos : ∀ v ∈ pv, 0 < card v := fun v hv => hp.pos v ((hmem v).1 hv)
  have hvp : ∀ v ∈ vars, 0 < card v := fun v hv => hp.pos v (hsub hv)
  have hcsub : cl.vars ⊆ pv := fun v hv => (hmem v).2 hv
  have hvsub : vars ⊆ pv := fun v hv => (hmem v).2 (hsub hv)
  -- the product
  obtain ⟨one, hone⟩ : ∃ one : Potential K, one = ⟨pv.map card, List.replicate (pv.map card).prod 1⟩ := ⟨_, rfl⟩
  have hon : TableOn card pv one := by
    rw [hone]; exact ones_on hpos
  have hosem : ∀ x, sem card pv one x = 1 := by
    rw [hone]; exact fun x => sem_ones hpos x
  obtain ⟨o, mo, mg⟩ := mapper_places hn hcsub
  have hcne : cl.vars ≠ [] := by
    intro h
    rw [h] at hsub
    exact hv (List.subset_nil.1 hsub)
  obtain ⟨mm, hmm⟩ : ∃ mm, o = some mm := by
    cases o with
    | some mm => exact ⟨mm, rfl⟩
    | none =>
      have := congrArg List.length mg
      simp only [Option.getD_none, List.length_nil, places, List.length_map] at this
      exact absurd (List.length_eq_zero_iff.1 this.symm) hcne
  subst hmm
  replace mg : mm = places pv cl.vars := mg
  obtain ⟨q, hq⟩ : ∃ q, q = Potential.ofFn one.card (fun x => Potential.updCell (some cl.p) none (places pv cl.vars) x (one.at' x)) := ⟨_, rfl⟩
  have hupd : Potential.update (some cl.p) none one (places pv cl.vars) = ok (0, q) := by
    rw [hq]
    refine Potential.update_ofFn hon.wf (Or.inl (by simp)) ?_ (by intro d hd; cases hd) (by intro _ h; exact absurd rfl h)
    rintro _ ⟨rfl⟩
    exact ⟨hp.wf, by rw [hon.card_eq, hp.card_eq]; exact places_into hcsub⟩
  have hqon : TableOn card pv q := by rw [hq, hon.card_eq]; exact ofFn_on hpos _
  have hqsem : ∀ x, sem card pv q x = sem card cl.vars cl.p x := by
    intro x
    rw [hq, hon.card_eq, sem_ofFn hpos]
    unfold Potential.updCell
    simp only [project_states hcsub]
    have : one.at' (states card pv x) = 1 := hosem x
    rw [this, one_mul]
    rfl
  -- the sum
  have hres : ∃ p, gatherResult card vars [] (pv.map card) q = ok (some p) ∧ TableOn card vars p ∧
      ∀ x, sem card vars p x = sumOver card (without cl.vars vars) (sem card cl.vars cl.p) x := by
    unfold gatherResult
    by_cases he : (pv.map card).length = vars.length + ([] : List Nat).length
    · rw [if_pos he]
      have hw : without cl.vars vars = [] := by
        rw [hpv] at he
        simp only [List.length_map, List.length_append, List.length_nil] at he
        exact List.length_eq_zero_iff.1 (by omega)
      have hpe : pv = vars := by rw [hpv, hw, List.append_nil]
      rw [hpe] at hqon hqsem
      refine ⟨q, rfl, hqon, ?_⟩
      intro x
      rw [hw, hqsem]; rfl
    · rw [if_neg he]
      have hle : vars.length ≤ (pv.map card).length := by rw [hpv]; simp
      have htake : (pv.map card).take vars.length = vars.map card := by
        rw [hpv, List.map_append, List.take_append_of_le_length (by simp), List.take_of_length_le (by simp)]
      have h1 := rewrite_cards (card := card) vars (without cl.vars vars) vars.length le_rfl
      rw [← hpv] at h1
      obtain ⟨sum, hsum⟩ : ∃ sum : Potential K, sum = ⟨vars.map card, List.replicate (vars.map card).prod 1⟩ := ⟨_, rfl⟩
      have hson : TableOn card vars sum := by rw [hsum]; exact ones_on hvp
      obtain ⟨r, hr⟩ : ∃ r, r = Potential.ofFn sum.card (fun y => sumTuples q.card (fun x => project (places pv vars) x = y) q.at') := ⟨_, rfl⟩
      have hg : Potential.generalMarginalise q sum (places pv vars) = ok (0, r) := by
        rw [hr]
        refine Potential.generalMarginalise_ofFn hqon.wf hson.wf ?_ ?_
        · rw [hqon.card_eq, hson.card_eq]; exact places_into hvsub
        · rw [hqon.card_eq, hson.card_eq]; simpa using hle
      have hpl : places pv vars = List.range vars.length := by rw [hpv]; exact places_front hvn
      rw [hpl] at hg
      refine ⟨r, ?_, ?_, ?_⟩
      · rw [h1, ok_bind]
        simp only [List.length_nil, loop_zero, ok_bind, Nat.add_zero]
        rw [new_take hle, ok_bind, htake, ← hsum]
        simp only [hg, ok_bind, ne_eq, not_true, if_false]
      · rw [hr, hson.card_eq]; exact ofFn_on hvp _
      · intro x
        rw [hr, hson.card_eq, sem_ofFn hvp]
        refine Eq.trans (sumTuples_sem hpn hvsub hqon x) ?_
        have hw : pv.filter (· ∉ vars) = without cl.vars vars := by
          rw [hpv, List.filter_append]
          have e1 : vars.filter (· ∉ vars) = [] := by
            rw [List.filter_eq_nil_iff]; intro a ha; simpa using ha
          rw [e1, List.nil_append]
          unfold without
          rw [List.filter_filter]; simp
        rw [hw]
        exact sumOver_congr' hqsem
  obtain ⟨p, r1, r2, r3⟩ := hres
  refine ⟨p, t1, ?_, m2, r2, r3⟩
  unfold gather
  rw [if_neg (by simpa using hv), rd_eq_ok.2 hc, ok_bind, m1, ok_bind, variableUnion_eq _ _ hvn hn, ok_bind]
  simp only
  rw [takeVars_eq, ok_bind, hpv']
  have hl : (pv.length : Int) = ((pv.map card).length : Int) := by simp
  rw [hl, Potential.new_none, ok_bind, mo, ok_bind, ← hone]
  simp only
  rw [mg, hupd, ok_bind, hs]
  simp only [ne_eq, not_true, if_false, List.foldlM_nil, pure_eq, ok_bind, r1]

end JTree
end Nip
