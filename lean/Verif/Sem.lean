import Verif.Spec.Sum
import Verif.PotentialLemmas
import Mathlib.Algebra.BigOperators.Group.Finset.Sigma
import Mathlib.Algebra.BigOperators.Ring.Finset
import Mathlib.Algebra.Order.BigOperators.Group.Finset

/-! # Tables as functions of assignments -/

namespace Nip

open Res Spec

set_option linter.unusedSectionVars false

/-- assignments -/
abbrev Asg := Nat → Nat

section sums

variable {K : Type} [Field K] {card : Nat → Nat}

/-- `f` does not depend on the state of `v` -/
def Indep (v : Nat) (f : Asg → K) : Prop := ∀ x i, f (Function.update x v i) = f x

/-- `f` looks at states modulo the number of states only -/
def Modular (card : Nat → Nat) (f : Asg → K) : Prop := ∀ x v, f (Function.update x v (x v % card v)) = f x

theorem sumOver_append (vs ws : List Nat) (f : Asg → K) (x : Asg) :
    sumOver card (vs ++ ws) f x = sumOver card vs (sumOver card ws f) x := by
  induction vs generalizing x with
  | nil => rfl
  | cons v vs ih => simp only [List.cons_append, sumOver, ih]

theorem sumOver_congr_off {vs : List Nat} {f g : Asg → K} {x y : Asg} (hxy : ∀ w, w ∉ vs → x w = y w)
    (h : ∀ z, (∀ w, w ∉ vs → z w = x w) → f z = g z) : sumOver card vs f x = sumOver card vs g y := by
  induction vs generalizing x y with
  | nil =>
    have : x = y := funext fun w => hxy w (by simp)
    subst this
    exact h x (fun _ _ => rfl)
  | cons v vs ih =>
    simp only [sumOver]
    refine Finset.sum_congr rfl fun i _ => ih ?_ ?_
    · intro w hw
      by_cases e : w = v
      · subst e; simp
      · rw [Function.update_of_ne e, Function.update_of_ne e]; exact hxy w (by simp [e, hw])
    · intro z hz
      apply h
      intro w hw
      simp only [List.mem_cons, not_or] at hw
      rw [hz w hw.2, Function.update_of_ne hw.1]

theorem sumOver_congr {vs : List Nat} {f g : Asg → K} {x : Asg} (h : ∀ z, (∀ w, w ∉ vs → z w = x w) → f z = g z) :
    sumOver card vs f x = sumOver card vs g x := sumOver_congr_off (fun _ _ => rfl) h

theorem sumOver_congr' {vs : List Nat} {f g : Asg → K} {x : Asg} (h : ∀ z, f z = g z) :
    sumOver card vs f x = sumOver card vs g x := sumOver_congr (fun z _ => h z)

theorem sumOver_swap (v w : Nat) (vs : List Nat) (f : Asg → K) (x : Asg) :
    sumOver card (v :: w :: vs) f x = sumOver card (w :: v :: vs) f x := by
  by_cases e : v = w
  · subst e; rfl
  · simp only [sumOver]
    rw [Finset.sum_comm]
    refine Finset.sum_congr rfl fun i _ => Finset.sum_congr rfl fun j _ => ?_
    rw [Function.update_comm e]

theorem sumOver_perm {vs ws : List Nat} (h : vs.Perm ws) (f : Asg → K) (x : Asg) :
    sumOver card vs f x = sumOver card ws f x := by
  induction h generalizing x with
  | nil => rfl
  | cons v _ ih => simp only [sumOver, ih]
  | swap v w vs => exact sumOver_swap _ _ _ _ _
  | trans _ _ ih1 ih2 => rw [ih1, ih2]

theorem sumOver_mul_right {vs : List Nat} {f g : Asg → K} (hg : ∀ v ∈ vs, Indep v g) (x : Asg) :
    sumOver card vs (fun z => f z * g z) x = sumOver card vs f x * g x := by
  induction vs generalizing x with
  | nil => rfl
  | cons v vs ih =>
    simp only [sumOver]
    rw [Finset.sum_mul]
    refine Finset.sum_congr rfl fun i _ => ?_
    rw [ih (fun w hw => hg w (List.mem_cons_of_mem _ hw)), hg v (List.mem_cons_self ..)]

theorem sumOver_mul_left {vs : List Nat} {f g : Asg → K} (hg : ∀ v ∈ vs, Indep v g) (x : Asg) :
    sumOver card vs (fun z => g z * f z) x = g x * sumOver card vs f x := by
  rw [mul_comm, ← sumOver_mul_right hg]
  exact sumOver_congr' fun z => mul_comm _ _

theorem sumOver_indep_of {vs : List Nat} {f : Asg → K} {w : Nat} (h : w ∈ vs ∨ Indep w f) : Indep w (sumOver card vs f) := by
  induction vs with
  | nil =>
    rcases h with h | h
    · cases h
    · exact h
  | cons v vs ih =>
    intro x i
    simp only [sumOver]
    refine Finset.sum_congr rfl fun j _ => ?_
    by_cases e : w = v
    · subst e; rw [Function.update_idem]
    · rw [Function.update_comm e]
      refine ih ?_ _ _
      rcases h with h | h
      · rcases List.mem_cons.mp h with h | h
        · exact absurd h e
        · exact Or.inl h
      · exact Or.inr h

theorem Indep.mul {v : Nat} {f g : Asg → K} (hf : Indep v f) (hg : Indep v g) : Indep v (fun x => f x * g x) :=
  fun x i => by show f _ * g _ = _; rw [hf, hg]

theorem Indep.div {v : Nat} {f g : Asg → K} (hf : Indep v f) (hg : Indep v g) : Indep v (fun x => f x / g x) :=
  fun x i => by show f _ / g _ = _; rw [hf, hg]

theorem Indep.eq_of_agree {vs : List Nat} {f : Asg → K} (hf : ∀ v, v ∉ vs → Indep v f) (ws : List Nat) {x y : Asg}
    (hxy : ∀ v ∈ vs, x v = y v) (hws : ∀ v, v ∉ ws → x v = y v) : f x = f y := by
  induction ws generalizing x with
  | nil => rw [funext fun w => hws w (by simp)]
  | cons w ws ih =>
    by_cases hw : w ∈ vs
    · refine ih hxy ?_
      intro v hv
      by_cases e : v = w
      · subst e; exact hxy v hw
      · exact hws v (by simp [e, hv])
    · rw [← hf w hw x (y w)]
      refine ih ?_ ?_
      · intro v hv
        rw [Function.update_of_ne (ne_of_mem_of_not_mem hv hw)]; exact hxy v hv
      · intro v hv
        by_cases e : v = w
        · subst e; simp
        · rw [Function.update_of_ne e]; exact hws v (by simp [e, hv])

section order
variable [LinearOrder K] [IsStrictOrderedRing K]

theorem sumOver_nonneg {vs : List Nat} {f : Asg → K} (h : ∀ z, 0 ≤ f z) (x : Asg) : 0 ≤ sumOver card vs f x := by
  induction vs generalizing x with
  | nil => exact h x
  | cons v vs ih => exact Finset.sum_nonneg fun i _ => ih _

theorem sumOver_zero {vs : List Nat} {f : Asg → K} (h : ∀ z, 0 ≤ f z) (hm : Modular card f) (hpos : ∀ v ∈ vs, 0 < card v) {x : Asg}
    (h0 : sumOver card vs f x = 0) : f x = 0 := by
  induction vs generalizing x with
  | nil => exact h0
  | cons v vs ih =>
    simp only [sumOver] at h0
    have h1 := (Finset.sum_eq_zero_iff_of_nonneg (fun i _ => sumOver_nonneg h _)).mp h0 (x v % card v)
      (Finset.mem_range.mpr (Nat.mod_lt _ (hpos v (List.mem_cons_self ..))))
    rw [← hm x v]
    exact ih (fun w hw => hpos w (List.mem_cons_of_mem _ hw)) h1

theorem sumOver_eq_zero {vs : List Nat} {f : Asg → K} {x : Asg} (h : ∀ z, (∀ w, w ∉ vs → z w = x w) → f z = 0) :
    sumOver card vs f x = 0 := by
  induction vs generalizing x with
  | nil => exact h x (fun _ _ => rfl)
  | cons v vs ih =>
    refine Finset.sum_eq_zero fun i _ => ih ?_
    intro z hz
    apply h
    intro w hw
    simp only [List.mem_cons, not_or] at hw
    rw [hz w hw.2, Function.update_of_ne hw.1]

end order

theorem sumOver_modular {vs : List Nat} {f : Asg → K} (hm : Modular card f) : Modular card (sumOver card vs f) := by
  induction vs with
  | nil => exact hm
  | cons v vs ih =>
    intro x w
    simp only [sumOver]
    refine Finset.sum_congr rfl fun j _ => ?_
    by_cases e : w = v
    · subst e; rw [Function.update_idem]
    · rw [Function.update_comm e]
      have := ih (Function.update x v j) w
      rw [Function.update_of_ne e] at this
      exact this

end sums

variable {K : Type} [Zero K] [One K] [Add K] [_root_.Sub K] [Mul K] [Div K] [LinearOrder K] {card : Nat → Nat}

/-- the states of the variables `vs` in `x` -/
def states (card : Nat → Nat) (vs : List Nat) (x : Asg) : List Nat := vs.map (fun v => x v % card v)

/-- a table over the variables `vs` as a function of assignments -/
def sem (card : Nat → Nat) (vs : List Nat) (p : Potential K) (x : Asg) : K := p.at' (states card vs x)

/-- a table of the right shape -/
structure TableOn (card : Nat → Nat) (vs : List Nat) (p : Potential K) : Prop where
  wf : p.Wf
  card_eq : p.card = vs.map card

theorem states_inRange {vs : List Nat} (hpos : ∀ v ∈ vs, 0 < card v) (x : Asg) : InRange (vs.map card) (states card vs x) := by
  induction vs with
  | nil => exact List.Forall₂.nil
  | cons v vs ih =>
    exact List.Forall₂.cons (Nat.mod_lt _ (hpos v (List.mem_cons_self ..))) (ih fun w hw => hpos w (List.mem_cons_of_mem _ hw))

theorem TableOn.pos {vs : List Nat} {p : Potential K} (h : TableOn card vs p) : ∀ v ∈ vs, 0 < card v := by
  intro v hv
  have := h.wf.2
  rw [h.card_eq] at this
  exact this _ (List.mem_map_of_mem hv)

theorem TableOn.inRange {vs : List Nat} {p : Potential K} (h : TableOn card vs p) (x : Asg) : InRange p.card (states card vs x) := by
  rw [h.card_eq]; exact states_inRange h.pos x

theorem states_congr {vs : List Nat} {x y : Asg} (h : ∀ v ∈ vs, x v % card v = y v % card v) : states card vs x = states card vs y :=
  List.map_congr_left h

theorem sem_indep {vs : List Nat} {p : Potential K} {v : Nat} (hv : v ∉ vs) : Indep v (sem card vs p) := by
  intro x i
  unfold sem
  rw [states_congr]
  intro w hw
  rw [Function.update_of_ne (ne_of_mem_of_not_mem hw hv)]

theorem sem_modular (vs : List Nat) (p : Potential K) : Modular card (sem card vs p) := by
  intro x v
  unfold sem
  rw [states_congr]
  intro w hw
  by_cases e : w = v
  · subst e; simp
  · rw [Function.update_of_ne e]

/-- every tuple in range is the tuple of states of some assignment -/
theorem exists_states {vs : List Nat} (hn : vs.Nodup) {idx : List Nat} (h : InRange (vs.map card) idx) :
    ∃ x : Asg, states card vs x = idx ∧ ∀ v ∈ vs, x v < card v := by
  induction vs generalizing idx with
  | nil => cases h; exact ⟨fun _ => 0, rfl, by simp⟩
  | cons v vs ih =>
    cases h with
    | cons hi ht =>
      rename_i i idx
      obtain ⟨x, hx, hl⟩ := ih (List.nodup_cons.mp hn).2 ht
      have hv := (List.nodup_cons.mp hn).1
      refine ⟨Function.update x v i, ?_, ?_⟩
      · unfold states at hx ⊢
        rw [List.map_cons]
        congr 1
        · simp [Nat.mod_eq_of_lt hi]
        · rw [← hx]
          apply List.map_congr_left
          intro w hw
          rw [Function.update_of_ne (ne_of_mem_of_not_mem hw hv)]
      · intro w hw
        rcases List.mem_cons.mp hw with rfl | hw
        · simpa using hi
        · rw [Function.update_of_ne (ne_of_mem_of_not_mem hw hv)]; exact hl w hw

theorem sem_ext {vs : List Nat} (hn : vs.Nodup) {p q : Potential K} (hp : TableOn card vs p) (hq : TableOn card vs q)
    (h : ∀ x, sem card vs p x = sem card vs q x) : p = q := by
  refine Potential.ext_at' hp.wf hq.wf (hp.card_eq.trans hq.card_eq.symm) ?_
  intro idx hidx
  rw [hp.card_eq] at hidx
  obtain ⟨x, rfl, _⟩ := exists_states hn hidx
  exact h x

theorem sem_ofFn {vs : List Nat} (hpos : ∀ v ∈ vs, 0 < card v) (f : List Nat → K) (x : Asg) :
    sem card vs (Potential.ofFn (vs.map card) f) x = f (states card vs x) :=
  Potential.ofFn_at' f (states_inRange hpos x)

theorem ofFn_on {vs : List Nat} (hpos : ∀ v ∈ vs, 0 < card v) (f : List Nat → K) :
    TableOn card vs (Potential.ofFn (vs.map card) f) := by
  refine ⟨Potential.ofFn_wf ?_ f, rfl⟩
  intro c hc
  obtain ⟨v, hv, rfl⟩ := List.mem_map.mp hc
  exact hpos v hv

/-! ### sums over tuples are sums over variables -/

/-- the entries of `idx` for the variables in `us` are those of `x` -/
def Agree (card : Nat → Nat) (us : List Nat) (x : Asg) : List Nat → List Nat → Prop
  | v :: vs, i :: idx => (v ∈ us → i = x v % card v) ∧ Agree card us x vs idx
  | _, _ => True

instance (us : List Nat) (x : Asg) : ∀ vs idx, Decidable (Agree card us x vs idx)
  | v :: vs, i :: idx => by
    have := instDecidableAgree us x vs idx
    unfold Agree; infer_instance
  | [], _ => by unfold Agree; infer_instance
  | _ :: _, [] => by unfold Agree; infer_instance

theorem sumTuples_cons {K : Type} [Field K] [LinearOrder K] (c : Nat) (cs : List Nat) (P : List Nat → Prop) [DecidablePred P] (f : List Nat → K) :
    sumTuples (c :: cs) P f = ((tuples cs).map (fun t => ∑ i ∈ Finset.range c, if P (i :: t) then f (i :: t) else 0)).sum := by
  unfold sumTuples
  rw [tuples]
  generalize tuples cs = T
  induction T with
  | nil => rfl
  | cons t T ih =>
    rw [List.flatMap_cons, List.map_append, List.sum_append, ih, List.map_cons, List.sum_cons]
    congr 1
    rw [List.map_map, sum_range_list]
    rfl

theorem agree_congr {us vs : List Nat} {x y : Asg} (h : ∀ v ∈ vs, v ∈ us → x v % card v = y v % card v) (idx : List Nat) :
    Agree card us x vs idx ↔ Agree card us y vs idx := by
  induction vs generalizing idx with
  | nil => simp [Agree]
  | cons v vs ih =>
    cases idx with
    | nil => simp [Agree]
    | cons i idx =>
      simp only [Agree]
      rw [ih (fun w hw => h w (List.mem_cons_of_mem _ hw))]
      refine and_congr_left fun _ => ?_
      constructor
      · intro g hv; rw [g hv, h v (List.mem_cons_self ..) hv]
      · intro g hv; rw [g hv, h v (List.mem_cons_self ..) hv]

theorem sumTuples_agree {K : Type} [Field K] [LinearOrder K] (us vs : List Nat) (hn : vs.Nodup) (hpos : ∀ v ∈ vs, 0 < card v) (f : List Nat → K) (x : Asg) :
    sumTuples (vs.map card) (Agree card us x vs) f =
      sumOver card (vs.filter (· ∉ us)) (fun z => f (states card vs z)) x := by
  induction vs generalizing f x with
  | nil => simp [sumTuples, tuples, Agree, sumOver, states]
  | cons v vs ih =>
    have hv := (List.nodup_cons.mp hn).1
    have hpv := hpos v (List.mem_cons_self ..)
    have ih' := ih (List.nodup_cons.mp hn).2 (fun w hw => hpos w (List.mem_cons_of_mem _ hw))
    rw [List.map_cons, sumTuples_cons]
    by_cases hu : v ∈ us
    · rw [List.filter_cons, if_neg (by simpa using hu)]
      have h1 : ∀ t, (∑ i ∈ Finset.range (card v), if Agree card us x (v :: vs) (i :: t) then f (i :: t) else 0) =
          if Agree card us x vs t then f (x v % card v :: t) else 0 := by
        intro t
        rw [Finset.sum_eq_single (x v % card v)]
        · simp [Agree]
        · intro b _ hb
          rw [if_neg]
          simp only [Agree, not_and]
          intro h; exact absurd (h hu) hb
        · intro h
          exact absurd (Finset.mem_range.mpr (Nat.mod_lt _ hpv)) h
      simp only [h1]
      have := ih' (fun t => f (x v % card v :: t)) x
      unfold sumTuples at this
      rw [this]
      apply sumOver_congr
      intro z hz
      have : z v = x v := hz v (by simp [hv])
      unfold states
      rw [List.map_cons, this]
    · rw [List.filter_cons, if_pos (by simpa using hu)]
      simp only [sumOver]
      have h1 : ∀ i ∈ Finset.range (card v), sumOver card (vs.filter (· ∉ us)) (fun z => f (states card (v :: vs) z)) (Function.update x v i) =
          ((tuples (vs.map card)).map (fun t => if Agree card us x (v :: vs) (i :: t) then f (i :: t) else 0)).sum := by
        intro i hi
        have := ih' (fun t => f (i :: t)) (Function.update x v i)
        have e : sumOver card (vs.filter (· ∉ us)) (fun z => f (states card (v :: vs) z)) (Function.update x v i) =
            sumOver card (vs.filter (· ∉ us)) (fun z => f (i :: states card vs z)) (Function.update x v i) := by
          apply sumOver_congr
          intro z hz
          have : z v = i := by rw [hz v (by simp [hv])]; simp
          unfold states
          rw [List.map_cons, this, Nat.mod_eq_of_lt (Finset.mem_range.mp hi)]
        rw [e, ← this]
        unfold sumTuples
        congr 1
        apply List.map_congr_left
        intro t _
        have h2 : Agree card us (Function.update x v i) vs t ↔ Agree card us x (v :: vs) (i :: t) := by
          simp only [Agree, hu, false_implies, true_and]
          apply agree_congr
          intro w hw _
          rw [Function.update_of_ne (ne_of_mem_of_not_mem hw hv)]
        simp only [h2]
      rw [Finset.sum_congr rfl h1]
      generalize tuples (vs.map card) = T
      induction T with
      | nil => simp
      | cons t T ihT =>
        simp only [List.map_cons, List.sum_cons, Finset.sum_add_distrib, ihT]

/-- places in `vs` of the variables `us` -/
def places (vs us : List Nat) : List Nat := us.map (fun x => vs.findIdx (fun y => x == y))

theorem findIdx_getD {vs : List Nat} {u : Nat} (hu : u ∈ vs) (g : Nat → Nat) (d : Nat) :
    (vs.map g).getD (vs.findIdx (fun y => u == y)) d = g u := by
  have hlt : vs.findIdx (fun y => u == y) < vs.length := List.findIdx_lt_length_of_exists ⟨u, hu, by simp⟩
  rw [List.getD_eq_getElem _ _ (by simpa using hlt), List.getElem_map]
  have := List.findIdx_getElem (w := hlt)
  simp only [beq_iff_eq] at this
  rw [← this]

theorem places_into {vs us : List Nat} (hsub : us ⊆ vs) : Into (vs.map card) (places vs us) (us.map card) := by
  refine ⟨?_, ?_⟩
  · intro m hm
    obtain ⟨u, hu, rfl⟩ := List.mem_map.mp hm
    rw [List.length_map]
    exact List.findIdx_lt_length_of_exists ⟨u, hsub hu, by simp⟩
  · unfold places
    rw [List.map_map]
    apply List.map_congr_left
    intro u hu
    simp only [Function.comp]
    rw [findIdx_getD (hsub hu)]

theorem project_states {vs us : List Nat} (hsub : us ⊆ vs) (x : Asg) : project (places vs us) (states card vs x) = states card us x := by
  unfold project places states
  rw [List.map_map]
  apply List.map_congr_left
  intro u hu
  simp only [Function.comp]
  rw [findIdx_getD (hsub hu)]

theorem agree_project {vs us : List Nat} (hn : vs.Nodup) (hsub : us ⊆ vs) (x : Asg) {idx : List Nat} (hidx : InRange (vs.map card) idx) :
    project (places vs us) idx = states card us x ↔ Agree card us x vs idx := by
  obtain ⟨z, rfl, _⟩ := exists_states hn hidx
  rw [project_states hsub]
  have h1 : (states card us z = states card us x) ↔ ∀ u ∈ us, z u % card u = x u % card u := by
    unfold states; rw [List.map_inj_left]
  have h2 : ∀ ws : List Nat, (Agree card us x ws (states card ws z)) ↔ ∀ u ∈ ws, u ∈ us → z u % card u = x u % card u := by
    intro ws
    induction ws with
    | nil => simp [Agree]
    | cons w ws ih =>
      rw [List.forall_mem_cons, ← ih]
      unfold states
      simp only [List.map_cons, Agree]
  rw [h1, h2]
  exact ⟨fun h u _ hu => h u hu, fun h u hu => h u (hsub hu) hu⟩

/-- **summing a table onto some of its variables** -/
theorem sumTuples_sem {K : Type} [Field K] [LinearOrder K] {vs us : List Nat} (hn : vs.Nodup) (hsub : us ⊆ vs) {p : Potential K} (hp : TableOn card vs p) (x : Asg) :
    sumTuples p.card (fun idx => project (places vs us) idx = states card us x) p.at' =
      sumOver card (vs.filter (· ∉ us)) (sem card vs p) x := by
  rw [hp.card_eq, sumTuples_congr_dec hn hsub]
  exact sumTuples_agree us vs hn hp.pos p.at' x
where
  sumTuples_congr_dec {vs us : List Nat} {x : Asg} {f : List Nat → K} (hn : vs.Nodup) (hsub : us ⊆ vs) :
      sumTuples (vs.map card) (fun idx => project (places vs us) idx = states card us x) f = sumTuples (vs.map card) (Agree card us x vs) f :=
    Potential.sumTuples_congr (fun _ hidx => agree_project hn hsub x hidx) (fun _ _ => rfl)

end Nip
