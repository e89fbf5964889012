import Verif.EmLearn

/-!
# Lemmas for C61: what the tables of the cliques say about the parameters

The tables of a clique are the product of the tables of the file that have been entered there.  If the tables are normalised and the graph has no
directed cycle, summing out a variable that comes after all the others removes its table; so the marginal of the product on a family is a multiple of
the table of the family, the factor not depending on the state of the child.
-/

namespace Nip

open Res Spec

set_option linter.unusedSectionVars false

variable {K : Type} [Field K] [LinearOrder K] [IsStrictOrderedRing K]

/-- the product of some tables of a file -/
def tablesProd (f : NetFile K) (T : List (Parsed K)) (x : Asg) : K := (T.map (fun q => f.entry q (wrap f.card x))).prod

theorem entry_indep {f : NetFile K} {q : Parsed K} {v : Nat} (h1 : v ≠ q.child) (h2 : v ∉ q.parents) :
    Indep v (fun x => f.entry q (wrap f.card x)) := by
  have : v ∉ f.family q := by
    unfold NetFile.family
    simp [h1, h2]
  exact sem_indep this

theorem tablesProd_indep {f : NetFile K} {T : List (Parsed K)} {v : Nat} (h : ∀ q ∈ T, v ≠ q.child ∧ v ∉ q.parents) : Indep v (tablesProd f T) := by
  intro x i
  unfold tablesProd
  congr 1
  apply List.map_congr_left
  intro q hq
  exact entry_indep (h q hq).1 (h q hq).2 x i

theorem entry_sum {f : NetFile K} (hf : f.Valid) (hn : f.Normalised) {q : Parsed K} (hq : q ∈ f.pots) (x : Asg) :
    ∑ j ∈ Finset.range (f.card q.child), f.entry q (wrap f.card (Function.update x q.child j)) = 1 := by
  rw [← hn q hq (wrap f.card x) (fun v hv => Nat.mod_lt _ (hf.states v hv))]
  refine Finset.sum_congr rfl fun j hj => ?_
  congr 1
  funext u
  unfold wrap
  by_cases e : u = q.child
  · subst e; simp [Nat.mod_eq_of_lt (Finset.mem_range.mp hj)]
  · simp [Function.update_of_ne e]

/-- summing out the child of a table, if it is in no other table -/
theorem eliminate {f : NetFile K} (hf : f.Valid) (hn : f.Normalised) {T : List (Parsed K)} {S : List Nat} {q : Parsed K} (hq : q ∈ f.pots)
    {T' : List (Parsed K)} (hT : T.Perm (q :: T')) (hS : q.child ∈ S) (hSn : S.Nodup) (ho : ∀ r ∈ T', q.child ≠ r.child ∧ q.child ∉ r.parents) (x : Asg) :
    sumOver f.card S (tablesProd f T) x = sumOver f.card (S.erase q.child) (tablesProd f T') x := by
  have hp : S.Perm (S.erase q.child ++ [q.child]) := (List.perm_cons_erase hS).trans (List.perm_append_singleton _ _).symm
  rw [sumOver_perm hp, sumOver_append]
  refine sumOver_congr' fun z => ?_
  simp only [sumOver]
  have : ∀ y, tablesProd f T y = f.entry q (wrap f.card y) * tablesProd f T' y := by
    intro y
    unfold tablesProd
    rw [(hT.map _).prod_eq]
    simp
  simp only [this]
  rw [Finset.sum_congr rfl (fun j _ => by rw [tablesProd_indep ho]), ← Finset.sum_mul, entry_sum hf hn hq, one_mul]

theorem exists_last (rank : Nat → Nat) : ∀ {T : List (Parsed K)}, T ≠ [] → ∃ q ∈ T, ∀ r ∈ T, rank r.child ≤ rank q.child := by
  intro T
  induction T with
  | nil => intro h; exact absurd rfl h
  | cons a T ih =>
    intro _
    by_cases h : T = []
    · subst h; exact ⟨a, by simp, by simp⟩
    · obtain ⟨q, h1, h2⟩ := ih h
      by_cases e : rank a.child ≤ rank q.child
      · exact ⟨q, List.mem_cons_of_mem _ h1, fun r hr => by
          rcases List.mem_cons.mp hr with rfl | hr
          · exact e
          · exact h2 r hr⟩
      · exact ⟨a, by simp, fun r hr => by
          rcases List.mem_cons.mp hr with rfl | hr
          · exact le_refl _
          · have := h2 r hr; omega⟩

theorem perm_split {T : List (Parsed K)} {q : Parsed K} (hq : q ∈ T) : ∃ T', T.Perm (q :: T') := by
  obtain ⟨a, b, rfl⟩ := List.append_of_mem hq
  exact ⟨a ++ b, List.perm_middle⟩

/-- taking away the last table -/
theorem take_last {f : NetFile K} (hf : f.Valid) (hn : f.Normalised) {rank : Nat → Nat} (hr : ∀ q ∈ f.pots, ∀ u ∈ q.parents, rank u < rank q.child)
    {T : List (Parsed K)} (hTp : ∀ q ∈ T, q ∈ f.pots) (hd : (T.map (fun q => q.child)).Nodup) (h0 : T ≠ []) :
    ∃ q T', q ∈ T ∧ T.Perm (q :: T') ∧ (∀ r ∈ T, rank r.child ≤ rank q.child) ∧ (∀ r ∈ T', q.child ≠ r.child) ∧
      ∀ S : List Nat, S.Nodup → q.child ∈ S → sumOver f.card S (tablesProd f T) = sumOver f.card (S.erase q.child) (tablesProd f T') := by
  obtain ⟨q, h1, h2⟩ := exists_last rank h0
  obtain ⟨T', h3⟩ := perm_split h1
  have hne : ∀ r ∈ T', q.child ≠ r.child := by
    have := (h3.map (fun q => q.child)).nodup_iff.mp hd
    simp only [List.map_cons, List.nodup_cons, List.mem_map, not_exists, not_and] at this
    exact fun r hr e => this.1 r hr e.symm
  refine ⟨q, T', h1, h3, h2, hne, ?_⟩
  intro S hS hq
  funext x
  refine eliminate hf hn (hTp q h1) h3 hq hS (fun r hr' => ⟨hne r hr', ?_⟩) x
  intro hu
  have hrT : r ∈ T := h3.mem_iff.mpr (List.mem_cons_of_mem _ hr')
  have := hr r (hTp r hrT) _ hu
  have := h2 r hrT
  omega

/-- the sum does not depend on a variable that is the child of none of the tables, if the children that come later are summed out -/
theorem sum_indep {f : NetFile K} (hf : f.Valid) (hn : f.Normalised) {rank : Nat → Nat} (hr : ∀ q ∈ f.pots, ∀ u ∈ q.parents, rank u < rank q.child)
    {v : Nat} : ∀ (n : Nat) (T : List (Parsed K)) (S : List Nat), T.length = n → (∀ q ∈ T, q ∈ f.pots) → (T.map (fun q => q.child)).Nodup → S.Nodup →
      (∀ q ∈ T, q.child ≠ v) → (∀ q ∈ T, rank v < rank q.child → q.child ∈ S) → Indep v (sumOver f.card S (tablesProd f T)) := by
  intro n
  induction n with
  | zero =>
    intro T S hl _ _ _ _ _
    have : T = [] := List.length_eq_zero_iff.mp hl
    subst this
    exact sumOver_indep_of (Or.inr (tablesProd_indep (by simp)))
  | succ n ih =>
    intro T S hl hTp hd hS hv hin
    obtain ⟨q, T', h1, h2, h3, h4, h5⟩ := take_last hf hn hr hTp hd (by intro h; subst h; cases hl)
    by_cases e : rank v < rank q.child
    · rw [h5 S hS (hin q h1 e)]
      have hsub : ∀ r ∈ T', r ∈ T := fun r hr' => h2.mem_iff.mpr (List.mem_cons_of_mem _ hr')
      refine ih T' _ ?_ (fun r hr' => hTp r (hsub r hr')) ?_ (hS.erase _) (fun r hr' => hv r (hsub r hr')) ?_
      · have := h2.length_eq; rw [hl] at this; simpa using this.symm
      · have := (h2.map (fun q => q.child)).nodup_iff.mp hd
        rw [List.map_cons] at this
        exact (List.nodup_cons.mp this).2
      · intro r hr' hlt
        rw [hS.mem_erase_iff]
        exact ⟨(h4 r hr').symm, hin r (hsub r hr') hlt⟩
    · refine sumOver_indep_of (Or.inr (tablesProd_indep fun r hr' => ⟨(hv r hr').symm, ?_⟩))
      intro hu
      have := hr r (hTp r hr') v hu
      have := h3 r hr'
      omega

theorem sum_one_pos {card : Nat → Nat} : ∀ (S : List Nat), (∀ v ∈ S, 0 < card v) → ∀ x, 0 < sumOver card S (fun _ => (1 : K)) x := by
  intro S
  induction S with
  | nil => intro _ _; exact one_pos
  | cons v S ih =>
    intro h x
    simp only [sumOver]
    refine Finset.sum_pos (fun i _ => ih (fun u hu => h u (List.mem_cons_of_mem _ hu)) _) ?_
    exact Finset.nonempty_range_iff.mpr (ne_of_gt (h v (List.mem_cons_self ..)))

/-- the sum is positive if all the children are summed out -/
theorem sum_pos {f : NetFile K} (hf : f.Valid) (hn : f.Normalised) {rank : Nat → Nat} (hr : ∀ q ∈ f.pots, ∀ u ∈ q.parents, rank u < rank q.child) :
    ∀ (n : Nat) (T : List (Parsed K)) (S : List Nat), T.length = n → (∀ q ∈ T, q ∈ f.pots) → (T.map (fun q => q.child)).Nodup → S.Nodup →
      (∀ v ∈ S, 0 < f.card v) → (∀ q ∈ T, q.child ∈ S) → ∀ x, 0 < sumOver f.card S (tablesProd f T) x := by
  intro n
  induction n with
  | zero =>
    intro T S hl _ _ _ hp _ x
    have : T = [] := List.length_eq_zero_iff.mp hl
    subst this
    exact sum_one_pos S hp x
  | succ n ih =>
    intro T S hl hTp hd hS hp hin x
    obtain ⟨q, T', h1, h2, h3, h4, h5⟩ := take_last hf hn hr hTp hd (by intro h; subst h; cases hl)
    rw [h5 S hS (hin q h1)]
    have hsub : ∀ r ∈ T', r ∈ T := fun r hr' => h2.mem_iff.mpr (List.mem_cons_of_mem _ hr')
    refine ih T' _ ?_ (fun r hr' => hTp r (hsub r hr')) ?_ (hS.erase _) (fun v hv => hp v (List.mem_of_mem_erase hv)) ?_ x
    · have := h2.length_eq; rw [hl] at this; simpa using this.symm
    · have := (h2.map (fun q => q.child)).nodup_iff.mp hd
      rw [List.map_cons] at this
      exact (List.nodup_cons.mp this).2
    · intro r hr'
      rw [hS.mem_erase_iff]
      exact ⟨(h4 r hr').symm, hin r (hsub r hr')⟩

/-! ### the parameters found in the cliques -/

theorem column_update {f : NetFile K} {v : Nat} (hv : v ∉ f.givens v) {j : Nat} (hj : j < f.card v) (x : Asg) :
    j :: (states f.card (v :: f.givens v) x).tail = states f.card (v :: f.givens v) (Function.update x v j) := by
  unfold states
  simp only [List.map_cons, List.tail_cons, Function.update_self, Nat.mod_eq_of_lt hj]
  congr 1
  apply List.map_congr_left
  intro u hu
  rw [Function.update_of_ne (ne_of_mem_of_not_mem hu hv)]

theorem not_own_parent {f : NetFile K} (hf : f.Valid) (v : Nat) : v ∉ f.givens v := by
  intro h
  rw [givens_eq, mem_parentsOf hf] at h
  obtain ⟨q, h1, h2, h3⟩ := h
  exact ((hf.parents q h1).2 v h3).2 h2.symm

/-- the tables entered into a clique -/
def residents (f : NetFile K) (t : JTree K) (c : Nat) : List (Parsed K) := f.pots.filter (fun q => decide (q.parents ≠ []) && home t q c)

theorem mem_residents {f : NetFile K} {t : JTree K} {c : Nat} {q : Parsed K} :
    q ∈ residents f t c ↔ q ∈ f.pots ∧ q.parents ≠ [] ∧ t.findClique (q.parents ++ [q.child]) = ok (some c) := by
  unfold residents home
  rw [List.mem_filter, Bool.and_eq_true, decide_eq_true_eq]
  refine and_congr_right fun _ => and_congr_right fun _ => ?_
  split
  · rename_i d e
    rw [e]
    simp
  · rename_i h
    constructor
    · intro h'; cases h'
    · intro h'; exact absurd h' (h c)

theorem residents_nodup {f : NetFile K} (hf : f.Valid) (t : JTree K) (c : Nat) : ((residents f t c).map (fun q => q.child)).Nodup :=
  hf.distinct.sublist (List.filter_sublist.map _)

/-- the counts found in a clique, as sums of products of tables -/
theorem counts_root {f : NetFile K} (hf : f.Valid) (hn : f.Normalised) {rank : Nat → Nat} (hr : ∀ q ∈ f.pots, ∀ u ∈ q.parents, rank u < rank q.child)
    {t : JTree K} {c v : Nat} {cvars : List Nat} (hcn : cvars.Nodup) (hcpos : ∀ u ∈ cvars, 0 < f.card u) (hin : ∀ q ∈ residents f t c, q.child ∈ cvars)
    (hg : f.givens v = []) : Indep v (sumOver f.card (without cvars [v]) (tablesProd f (residents f t c))) ∧
      ∀ x, 0 < sumOver f.card (without cvars [v]) (tablesProd f (residents f t c)) x := by
  have hp : ∀ q ∈ residents f t c, q ∈ f.pots := fun q hq => (mem_residents.mp hq).1
  have hne : ∀ q ∈ residents f t c, q.child ≠ v := by
    rintro q hq rfl
    obtain ⟨h1, h2, _⟩ := mem_residents.mp hq
    rw [givens_child hf h1] at hg
    exact h2 hg
  have hS : (without cvars [v]).Nodup := hcn.filter _
  have hmem : ∀ q ∈ residents f t c, q.child ∈ without cvars [v] := fun q hq => mem_without.mpr ⟨hin q hq, by simpa using hne q hq⟩
  exact ⟨sum_indep hf hn hr _ _ _ rfl hp (residents_nodup hf t c) hS hne (fun q hq _ => hmem q hq),
    sum_pos hf hn hr _ _ _ rfl hp (residents_nodup hf t c) hS (fun u hu => hcpos u (mem_without.mp hu).1) hmem⟩

theorem counts_child {f : NetFile K} (hf : f.Valid) (hn : f.Normalised) {rank : Nat → Nat} (hr : ∀ q ∈ f.pots, ∀ u ∈ q.parents, rank u < rank q.child)
    {t : JTree K} {c : Nat} {cvars : List Nat} (hcn : cvars.Nodup) (hin : ∀ q ∈ residents f t c, q.child ∈ cvars)
    {q : Parsed K} (hq : q ∈ residents f t c) : ∃ h : Asg → K, Indep q.child h ∧
      ∀ x, sumOver f.card (without cvars (q.child :: q.parents)) (tablesProd f (residents f t c)) x = f.entry q (wrap f.card x) * h x := by
  obtain ⟨T', h2⟩ := perm_split hq
  have hd := (h2.map (fun q => q.child)).nodup_iff.mp (residents_nodup hf t c)
  rw [List.map_cons, List.nodup_cons] at hd
  have hsub : ∀ r ∈ T', r ∈ residents f t c := fun r hr' => h2.mem_iff.mpr (List.mem_cons_of_mem _ hr')
  have hpots := (mem_residents.mp hq).1
  have hne : ∀ r ∈ T', r.child ≠ q.child := fun r hr' e => hd.1 (List.mem_map.mpr ⟨r, hr', e⟩)
  refine ⟨sumOver f.card (without cvars (q.child :: q.parents)) (tablesProd f T'), ?_, ?_⟩
  · refine sum_indep hf hn hr _ _ _ rfl (fun r hr' => (mem_residents.mp (hsub r hr')).1) hd.2 (hcn.filter _) hne ?_
    intro r hr' hlt
    refine mem_without.mpr ⟨hin r (hsub r hr'), ?_⟩
    simp only [List.mem_cons, not_or]
    refine ⟨hne r hr', fun hu => ?_⟩
    have := hr q hpots _ hu
    omega
  · intro x
    rw [← sumOver_mul_left (g := fun x => f.entry q (wrap f.card x))]
    · refine sumOver_congr' fun z => ?_
      unfold tablesProd
      rw [(h2.map _).prod_eq]
      simp
    · intro u hu
      have := (mem_without.mp hu).2
      simp only [List.mem_cons, not_or] at this
      exact entry_indep this.1 this.2

/-- the parameters that learning starts from, without random numbers -/
theorem present_estimates {f : NetFile K} (hf : f.Valid) (hn : f.Normalised) (ha : f.Acyclic) {m : Model K} {w : World K} (h : Model.Holds f.net m w)
    (hpar : ∀ v, (m.var v).parents = f.givens v) (horig : ∀ c x, m.tree.origOf f.card c x = tablesProd f (residents f m.tree c) x)
    {params : List (Potential K)} (hp : CountTables f params) :
    ∃ params' m', presentParameters params m = ok (some params', m') ∧ Model.Same m m' ∧ Model.Holds f.net m' w ∧ CountTables f params' ∧
      (∀ v ∈ f.vars, f.givens v = [] → ∀ x, estimate (f.card v) (countsIn f params' v) (states f.card [v] x) = 1 / (f.card v : K)) ∧
      ∀ q ∈ f.pots, q.parents ≠ [] → ∀ x,
        estimate (f.card q.child) (countsIn f params' q.child) (states f.card (q.child :: q.parents) x) = f.entry q (wrap f.card x) ∨
          (estimate (f.card q.child) (countsIn f params' q.child) (states f.card (q.child :: q.parents) x) = 0 ∧ f.net.tables (wrap f.card x) = 0) := by
  obtain ⟨rank, hr⟩ := ha
  obtain ⟨ps, m', e1, e2, e3, e4, e5⟩ := presentParameters_spec hf h hpar hp
  have hs := h.sound
  have hin : ∀ c, ∀ q ∈ residents f m.tree c, q.child ∈ m.tree.varsOf c := by
    intro c q hq
    exact findClique_sub (mem_residents.mp hq).2.2 q.child (by simp)
  have hcl : ∀ (c : Nat) cl, m.tree.cliques[c]? = some cl → cl.vars.Nodup ∧ (∀ u ∈ cl.vars, 0 < f.card u) ∧
      ∀ x, sem f.card cl.vars cl.orig x = tablesProd f (residents f m.tree c) x := by
    intro c cl hc
    obtain ⟨n1, n2, n3⟩ := hs.typed.clq c cl hc
    refine ⟨n1, n2.pos, fun x => ?_⟩
    rw [← horig]
    unfold JTree.origOf
    rw [hc]
  refine ⟨ps, m', e1, e2, e3, e4, ?_, ?_⟩
  · intro v hv hg x
    obtain ⟨c, cl, f1, f2, f3, f4⟩ := e5 v hv
    rw [hg] at f4
    obtain ⟨n1, n2, n3⟩ := hcl c cl f2
    obtain ⟨i1, i2⟩ := counts_root hf hn hr (t := m.tree) (c := c) n1 n2 (fun q hq => by rw [← JTree.varsOf_eq f2]; exact hin c q hq) hg
    obtain ⟨H, hH⟩ : ∃ H, H = sumOver f.card (without cl.vars [v]) (tablesProd f (residents f m.tree c)) := ⟨_, rfl⟩
    rw [← hH] at i1 i2
    have hcount : ∀ x, countsIn f ps v (states f.card [v] x) = H x := by
      intro x
      rw [f4 x, hH]
      exact sumOver_congr' n3
    have hcol : ∀ j ∈ Finset.range (f.card v), countsIn f ps v (j :: (states f.card [v] x).tail) = H x := by
      intro j hj
      have := column_update (not_own_parent hf v) (Finset.mem_range.mp hj) x
      rw [hg] at this
      rw [this, hcount, i1]
    unfold estimate
    rw [Finset.sum_congr rfl hcol, hcount, Finset.sum_const, Finset.card_range, nsmul_eq_mul]
    have := ne_of_gt (i2 x)
    have hc0 : (f.card v : K) ≠ 0 := by exact_mod_cast ne_of_gt (hf.states v hv)
    field_simp
  · intro q hq hqp x
    have hv := hf.child q hq
    have hg := givens_child hf hq
    obtain ⟨c, cl, f1, f2, f3, f4⟩ := e5 q.child hv
    rw [hg] at f1 f3 f4
    obtain ⟨n1, n2, n3⟩ := hcl c cl f2
    have hres : q ∈ residents f m.tree c := mem_residents.mpr ⟨hq, hqp, f1⟩
    obtain ⟨H, i1, i2⟩ := counts_child hf hn hr n1 (fun q hq => by rw [← JTree.varsOf_eq f2]; exact hin c q hq) hres
    have hcount : ∀ x, countsIn f ps q.child (states f.card (q.child :: q.parents) x) = f.entry q (wrap f.card x) * H x := by
      intro x
      rw [f4 x, ← i2 x]
      exact sumOver_congr' n3
    have hcol : ∀ j ∈ Finset.range (f.card q.child), countsIn f ps q.child (j :: (states f.card (q.child :: q.parents) x).tail) =
        f.entry q (wrap f.card (Function.update x q.child j)) * H x := by
      intro j hj
      have := column_update (not_own_parent hf q.child) (Finset.mem_range.mp hj) x
      rw [hg] at this
      rw [this, hcount, i1]
    unfold estimate
    rw [Finset.sum_congr rfl hcol, hcount, ← Finset.sum_mul, entry_sum hf hn hq, one_mul]
    by_cases h0 : H x = 0
    · right
      refine ⟨by rw [h0, div_zero], ?_⟩
      have hz : sumOver f.card (without cl.vars (q.child :: q.parents)) (tablesProd f (residents f m.tree c)) x = 0 := by rw [i2, h0, mul_zero]
      have hc : c < m.tree.cliques.length := (List.getElem?_eq_some_iff.mp f2).1
      have hz' : tablesProd f (residents f m.tree c) x = 0 := by
        refine sumOver_zero (card := f.card) ?_ ?_ (fun u hu => n2 u (mem_without.mp hu).1) hz
        · intro z; rw [← horig]; exact hs.onneg c z
        · intro z u
          rw [← n3, ← n3]
          exact sem_modular _ _ z u
      have := hs.origs x
      rw [Finset.prod_eq_zero (Finset.mem_range.mpr hc) (by show m.tree.origOf f.card c x = 0; rw [horig]; exact hz')] at this
      exact this.symm
    · left
      field_simp

/-- a table with parents for each variable with parents -/
theorem children_perm {f : NetFile K} (hf : f.Valid) :
    ((f.pots.filter (fun q => decide (q.parents ≠ []))).map (fun q => q.child)).Perm (f.vars.filter (fun v => decide (f.givens v ≠ []))) := by
  refine (List.perm_ext_iff_of_nodup (hf.distinct.sublist (List.filter_sublist.map _)) ((hf.sorted.imp ne_of_lt).filter _)).mpr ?_
  intro v
  simp only [List.mem_map, List.mem_filter, decide_eq_true_eq]
  constructor
  · rintro ⟨q, ⟨h1, h2⟩, rfl⟩
    exact ⟨hf.child q h1, by rw [givens_child hf h1]; exact h2⟩
  · rintro ⟨h1, h2⟩
    obtain ⟨u, hu⟩ := List.exists_mem_of_ne_nil _ h2
    have := hu
    rw [givens_eq, mem_parentsOf hf] at this
    obtain ⟨q, q1, q2, q3⟩ := this
    exact ⟨q, ⟨q1, by rw [← givens_child hf q1, q2]; exact h2⟩, q2⟩

/-- so the product of the tables does not change -/
theorem present_tables {f : NetFile K} (hf : f.Valid) {count : Nat → List Nat → K}
    (h : ∀ q ∈ f.pots, q.parents ≠ [] → ∀ x, estimate (f.card q.child) (count q.child) (states f.card (q.child :: q.parents) x) = f.entry q (wrap f.card x) ∨
          (estimate (f.card q.child) (count q.child) (states f.card (q.child :: q.parents) x) = 0 ∧ f.net.tables (wrap f.card x) = 0)) (x : Asg) :
    (f.relearn count).net.tables (wrap f.card x) = f.net.tables (wrap f.card x) := by
  rw [relearn_tables hf, ← ((children_perm hf).map _).prod_eq, List.map_map]
  have hbase : f.net.tables (wrap f.card x) = ((f.pots.filter (fun q => decide (q.parents ≠ []))).map (fun q => f.entry q (wrap f.card x))).prod := rfl
  by_cases hall : ∀ q ∈ f.pots, q.parents ≠ [] →
      estimate (f.card q.child) (count q.child) (states f.card (q.child :: q.parents) x) = f.entry q (wrap f.card x)
  · rw [hbase]
    congr 1
    apply List.map_congr_left
    intro q hq
    rw [List.mem_filter, decide_eq_true_eq] at hq
    show estimate (f.card q.child) (count q.child) (states f.card (q.child :: f.givens q.child) x) = _
    rw [givens_child hf hq.1]
    exact hall q hq.1 hq.2
  · simp only [not_forall] at hall
    obtain ⟨q, q1, q2, q3⟩ := hall
    rcases h q q1 q2 x with h' | ⟨h', h0⟩
    · exact absurd h' q3
    · rw [h0]
      apply List.prod_eq_zero
      refine List.mem_map.mpr ⟨q, List.mem_filter.mpr ⟨q1, by simpa using q2⟩, ?_⟩
      show estimate (f.card q.child) (count q.child) (states f.card (q.child :: f.givens q.child) x) = _
      rw [givens_child hf q1]
      exact h'

/-! ### networks that cannot be told apart -/

structure Alike (A B : Net K) : Prop where
  vars : A.vars = B.vars
  card : A.card = B.card
  roots : A.roots = B.roots
  oldOut : A.oldOut = B.oldOut
  prior : ∀ v ∈ A.roots, A.prior v = B.prior v
  tables : ∀ x, A.tables (wrap A.card x) = B.tables (wrap A.card x)

theorem Alike.holds {A B : Net K} (h : Alike A B) {m : Model K} {w : World K} (hm : Model.Holds A m w) : Model.Holds B m w := by
  obtain ⟨h1, h2, h3, h4, h5, h6⟩ := h
  cases A
  cases B
  simp only at h1 h2 h3 h4 h5 h6
  subst h1 h2 h3 h4
  obtain ⟨s, t, r⟩ := hm
  refine ⟨⟨s.good, s.typed, s.nonneg, s.onneg, s.card, s.vars, s.roots, s.nodup, s.rnodup, s.rsub, s.cover, ?_, ?_, s.old, s.fam⟩,
    ⟨t.lik, t.entered, t.present⟩, ?_⟩
  · intro x; rw [s.origs x]; exact h6 x
  · intro v hv
    have := s.prior v hv
    have e := h5 v hv
    simp only at this
    rw [e] at this
    exact this
  · refine cast ?_ r
    congr 1
    funext x
    unfold repd jointWeight
    simp only
    rw [h6]
    congr 2
    apply congrArg
    apply List.map_congr_left
    intro v hv
    rw [h5 v hv]

theorem Alike.local {A B : Net K} (h : ∀ x y : Asg, (∀ v ∈ B.vars, x v = y v) → B.tables x = B.tables y) (h1 : A.vars = B.vars) (h2 : A.card = B.card)
    (h3 : A.roots = B.roots) (hA : Local A) : Local B := by
  refine ⟨h, ?_, ?_, ?_⟩
  · rw [← h3, ← h1]; exact hA.rsub
  · rw [← h1, ← h2]; exact hA.pos
  · rw [← h1]; exact hA.nodup

theorem relearn_like {f : NetFile K} (hf : f.Valid) {count : Nat → List Nat → K}
    (h1 : ∀ v ∈ f.vars, f.givens v = [] → ∀ x, estimate (f.card v) (count v) (states f.card [v] x) = 1 / (f.card v : K))
    (h2 : ∀ q ∈ f.pots, q.parents ≠ [] → ∀ x, estimate (f.card q.child) (count q.child) (states f.card (q.child :: q.parents) x) = f.entry q (wrap f.card x) ∨
          (estimate (f.card q.child) (count q.child) (states f.card (q.child :: q.parents) x) = 0 ∧ f.net.tables (wrap f.card x) = 0)) :
    Alike (f.relearn count).net f.net.levelled := by
  refine ⟨rfl, rfl, relearn_roots hf count, relearn_oldOut hf count, ?_, fun x => present_tables hf h2 x⟩
  intro v hv
  rw [relearn_roots hf] at hv
  obtain ⟨hv1, hv2⟩ := (mem_roots hf).mp hv
  rw [relearn_prior hf count hv1 hv2]
  show _ = List.replicate (f.card v) (1 / (f.card v : K))
  apply List.ext_getElem
  · simp
  · intro i hi _
    simp only [List.getElem_map, List.getElem_range]
    have hi' : i < f.card v := by simpa using hi
    rw [List.getElem_replicate, ← h1 v hv1 hv2 (fun _ => i)]
    unfold states
    simp [Nat.mod_eq_of_lt hi']

/-- what learning that starts from the model starts from -/
theorem continue_start (ptr : Nat) {f : NetFile K} (hf : f.Valid) (hn : f.Normalised) (ha : f.Acyclic) {hist : List (Op K)} (hh : ∀ op ∈ hist, op.Valid f.net) :
    ∃ m ps m1, NetFile.runFile ptr f hist = ok m ∧ presentParameters (f.drawn (fun _ _ => 1)) m = ok (some ps, m1) ∧ Model.Same m m1 ∧
      Model.Holds f.net m1 ((World.fresh f.net).after f.net hist) ∧ CountTables f ps ∧ Alike (f.relearn (countsIn f ps)).net f.net.levelled := by
  obtain ⟨m, g1, g3, g2⟩ := runFile_spec ptr hf hh
  obtain ⟨mb, b1, b2, b3, _, _, _, _, b8⟩ := build_parts ptr hf
  have hk := (g2 mb b1).1
  have hpar : ∀ v, (m.var v).parents = f.givens v := fun v => by rw [hk.parents, (b3 v).1, givens_eq]
  have horig : ∀ c x, m.tree.origOf f.card c x = tablesProd f (residents f m.tree c) x := by
    intro c x
    rw [Model.origOf_skel hk.skel, b8]
    have : home m.tree = home (K := K) mb.tree := by
      funext q d
      unfold home
      rw [Model.findClique_skel hk.skel]
    unfold tablesProd residents
    rw [this]
  obtain ⟨ps, m1, p1, p2, p3, p4, p5, p6⟩ := present_estimates hf hn ha g3 hpar horig (drawn_counts hf (num := fun _ _ => 1) (fun _ _ => zero_le_one))
  exact ⟨m, ps, m1, g1, p1, p2, p3, p4, relearn_like hf p5 p6⟩

/-- the first maximisation of learning that starts from the model -/
theorem continue_spec (ptr : Nat) {f : NetFile K} (hf : f.Valid) (hn : f.Normalised) (ha : f.Acyclic) {hist : List (Op K)} (hh : ∀ op ∈ hist, op.Valid f.net) :
    ∃ m ps0 ps m1 ps' m2, NetFile.runFile ptr f hist = ok m ∧ newParameters m = ok ps0 ∧ presentParameters ps0 m = ok (some ps, m1) ∧
      mStep ps m1 = ok (0, ps', m2) ∧ Model.Holds f.net.levelled m2 (World.fresh f.net) := by
  obtain ⟨m, g1, g3, g2⟩ := runFile_spec ptr hf hh
  obtain ⟨mb, b1, b2, b3, _, _, _, _, b8⟩ := build_parts ptr hf
  have hk := (g2 mb b1).1
  have hpar : ∀ v, (m.var v).parents = f.givens v := fun v => by rw [hk.parents, (b3 v).1, givens_eq]
  have horig : ∀ c x, m.tree.origOf f.card c x = tablesProd f (residents f m.tree c) x := by
    intro c x
    rw [Model.origOf_skel hk.skel, b8]
    have : home m.tree = home (K := K) mb.tree := by
      funext q d
      unfold home
      rw [Model.findClique_skel hk.skel]
    unfold tablesProd residents
    rw [this]
  obtain ⟨ps, m1, p1, p2, p3, p4, p5, p6⟩ := present_estimates hf hn ha g3 hpar horig (drawn_counts hf (num := fun _ _ => 1) (fun _ _ => zero_le_one))
  obtain ⟨ps', m2, q1, q2, q3, q4, _⟩ := mStep_spec hf p3.carries (fun v => (p2.parents v).trans (hpar v)) p4
  exact ⟨m, _, ps, m1, ps', m2, g1, newParameters_spec hf g3.sound hpar, p1, q1, (relearn_like hf p5 p6).holds q4⟩

end Nip
