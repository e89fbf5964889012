import Verif.HomomorphismBuild
import Verif.Tracked
import Verif.Likelihood
import Verif.AnyNumbers
import Mathlib.Algebra.Order.Ring.Pow

/-!
# The probability mass with rounding errors

The mass as a fold over the visits of the traversal, the same for all numbers, and what rounding does to it.
-/

namespace Nip

open Res Spec

set_option linter.unusedSectionVars false

/-! ## the order of the visits -/

section
variable {K L : Type} [Zero K] [One K] [Add K] [_root_.Sub K] [Mul K] [Div K] [LinearOrder K] [Zero L] [One L] [Add L] [_root_.Sub L] [Mul L] [Div L] [LinearOrder L]

/-- the sum of a table, in the order of the table -/
def tableSum (l : List K) : K := l.foldl (· + ·) 0

theorem tableSum_loop (xs : List K) : loop xs.length (fun i m => do let a ← rd xs i; ok (m + a)) (0 : K) = ok (tableSum xs) := by
  have h : ∀ n, n ≤ xs.length → loop n (fun i m => do let a ← rd xs i; ok (m + a)) (0 : K) = ok ((xs.take n).foldl (· + ·) 0) := by
    intro n
    induction n with
    | zero => intro _; rfl
    | succ n ih =>
      intro hn
      rw [loop_succ, ih (by omega)]
      show (do let a ← rd xs n; ok (_ + a)) = _
      rw [rd_lt (by omega : n < xs.length), ok_bind, List.take_succ_eq_append_getElem (by omega), List.foldl_append]
      rfl
  rw [h _ le_rfl, List.take_length]
  rfl

theorem tableSum_on {φ : K → L} (h0 : φ 0 = 0) (ha : ∀ a b, φ (a + b) = φ a + φ b) (l : List K) : tableSum (l.map φ) = φ (tableSum l) := by
  unfold tableSum
  rw [← h0]
  generalize (0 : K) = z
  induction l generalizing z with
  | nil => rfl
  | cons a l ih => rw [List.map_cons, List.foldl_cons, List.foldl_cons, ← ha]; exact ih _

namespace JTree

/-- the table looked at in a visit -/
def tableOf (t : JTree K) : Ev → List K
  | .clq c => match t.cliques[c]? with
    | some cl => cl.p.data
    | none => []
  | .sep s => match t.sepsets[s]? with
    | some sp => sp.new.data
    | none => []

/-- what a visit does to the mass -/
def visit (t : JTree K) (a : K) (e : Ev) : K :=
  match e with
  | .clq _ => a + tableSum (t.tableOf e)
  | .sep _ => a - tableSum (t.tableOf e)

theorem tableOf_bare {t t' : JTree K} (h : t'.bare = t.bare) (e : Ev) : t'.tableOf e = t.tableOf e := by
  have key : ∀ w : JTree K, w.bare.tableOf e = w.tableOf e := by
    intro w
    cases e with
    | clq c => unfold tableOf JTree.bare; simp only [List.getElem?_map]; cases w.cliques[c]? <;> rfl
    | sep s => rfl
  rw [← key t', h, key]

theorem visit_bare {t t' : JTree K} (h : t'.bare = t.bare) (a : K) (e : Ev) : t'.visit a e = t.visit a e := by
  cases e <;> simp only [visit, tableOf_bare h]

theorem tableOf_on (φ : K → L) (t : JTree K) (e : Ev) : (t.on φ).tableOf e = (t.tableOf e).map φ := by
  cases e with
  | clq c =>
    unfold tableOf JTree.on
    simp only [List.getElem?_map]
    cases t.cliques[c]? <;> rfl
  | sep s =>
    unfold tableOf JTree.on
    simp only [List.getElem?_map]
    cases t.sepsets[s]? <;> rfl

/-- **the mass is a fold over the visits** -/
theorem mass_fold {t : JTree K} {F : Forest} (hs : Sub t none 0 F) (hfuel : F.nodes.length < t.cliques.length + 1) :
    ∃ t', t.probabilityMass = ok ((Ev.clq 0 :: events F).foldl t.visit 0, t') ∧ t'.bare = t.bare := by
  obtain ⟨t', a', h1, h2, ⟨h3, h3a⟩, h4⟩ := dfs_spec cliqueMass negSepsetMass (fun done st => st.1.bare = t.bare ∧ st.2 = done.foldl t.visit 0)
    (by
      rintro done w w' a ⟨i1, i2⟩ hb
      exact ⟨hb.trans i1, i2⟩)
    (by
      rintro done w a c ⟨i1, i2⟩ hc
      refine ⟨w, w.visit a (.clq c), ?_, ⟨i1, ?_⟩, SameShape.rfl' w, fun x => rfl⟩
      · unfold cliqueMass
        rw [rd_lt hc, ok_bind]
        unfold Potential.size
        rw [tableSum_loop, ok_bind]
        simp only [visit, tableOf]
        rw [List.getElem?_eq_getElem hc]
      · simp only at i2 ⊢
        rw [List.foldl_append, ← i2, visit_bare i1]
        rfl)
    (by
      rintro done w a s p q ⟨i1, i2⟩ hj
      obtain ⟨sp, hsp, _⟩ := joins_sep hj
      refine ⟨w, w.visit a (.sep s), ?_, ⟨i1, ?_⟩, SameShape.rfl' w, fun x => rfl⟩
      · unfold negSepsetMass
        rw [rd_eq_ok.mpr hsp, ok_bind]
        unfold Potential.size
        rw [tableSum_loop, ok_bind]
        simp only [visit, tableOf]
        rw [hsp]
      · simp only at i2 ⊢
        rw [List.foldl_append, ← i2, visit_bare i1]
        rfl)
    (t.bare.cliques.length + 1) t.bare 0 none 0 F [] ⟨bare_bare t, rfl⟩ (hs.shape (bare_shape t)) (by rw [(bare_shape t).len]; exact hfuel)
      (fun x _ => bare_mark t x) (by intro s h; cases h)
  refine ⟨t', ?_, h3⟩
  unfold probabilityMass
  rw [unmarkAll_eq, ok_bind, h1, ok_bind]
  simp only at h3a ⊢
  rw [h3a]
  rfl

theorem adj_on (φ : K → L) (t : JTree K) (c : Nat) : (t.on φ).adj c = t.adj c := by
  unfold adj JTree.on
  simp only [List.getElem?_map]
  cases t.cliques[c]? <;> rfl

theorem ends_on (φ : K → L) (t : JTree K) (s : Nat) : (t.on φ).ends s = t.ends s := by
  unfold ends JTree.on
  simp only [List.getElem?_map]
  cases t.sepsets[s]? <;> rfl

theorem rep_on (φ : K → L) {t : JTree K} {c : Nat} {F : Forest} : Rep (t.on φ) c F ↔ Rep t c F := by
  induction F generalizing c with
  | nil => exact Iff.rfl
  | cons s d k r ih1 ih2 =>
    show (Joins (t.on φ) s c d ∧ ((t.on φ).adj d).filter _ = _ ∧ Rep (t.on φ) d k ∧ Rep (t.on φ) c r) ↔ (Joins t s c d ∧ (t.adj d).filter _ = _ ∧ Rep t d k ∧ Rep t c r)
    unfold Joins
    rw [adj_on, ends_on, ih1, ih2]

theorem sub_on (φ : K → L) {t : JTree K} {ps : Option Nat} {c : Nat} {F : Forest} : Sub (t.on φ) ps c F ↔ Sub t ps c F := by
  constructor
  · rintro ⟨h1, h2, h3, h4⟩
    exact ⟨by rw [← adj_on φ]; exact h1, (rep_on φ).1 h2, h3, by simpa using h4⟩
  · rintro ⟨h1, h2, h3, h4⟩
    exact ⟨by rw [adj_on]; exact h1, (rep_on φ).2 h2, h3, by simpa using h4⟩

end JTree
end

/-! ## the sums in a consistent tree -/

section
variable {K : Type} [Field K] [LinearOrder K] [IsStrictOrderedRing K]

theorem tableSum_eq (l : List K) : tableSum l = l.sum := by
  unfold tableSum
  rw [List.sum_eq_foldl]

namespace JTree

variable {card : Nat → Nat}

/-- if neighbours agree, every table sums up to the total of the represented function -/
theorem tables_total {t : JTree K} {L : List (Nat × Nat)} (hg : t.Good card L) (ht : Typed card t) (hn : Nonneg card t)
    (ha : Agrees card t (t.st card)) {T : Asg → K} (hT : Repr t.cliques.length t.sepsets.length (t.st card) T) {U : List Nat} (hU : U.Nodup)
    (hUV : ∀ v, v ∈ U ↔ ∃ e, e < t.cliques.length ∧ v ∈ t.varsOf e) (x : Asg) :
    (∀ c, c < t.cliques.length → tableSum (t.tableOf (.clq c)) = sumOver card U T x) ∧ ∀ s, s < t.sepsets.length → tableSum (t.tableOf (.sep s)) = sumOver card U T x := by
  have hc : ∀ c, c < t.cliques.length → sumOver card (t.varsOf c) (t.phi card c) x = sumOver card U T x := by
    intro c hc
    rw [sumOver_congr' (marginal hg ht hn ha hT hU hUV hc), ← sumOver_append]
    apply sumOver_perm
    rw [List.perm_ext_iff_of_nodup _ hU]
    · intro v
      rw [List.mem_append, mem_without]
      constructor
      · rintro (h | h)
        · exact (hUV v).mpr ⟨c, hc, h⟩
        · exact h.1
      · intro h
        by_cases hv : v ∈ t.varsOf c
        · exact Or.inl hv
        · exact Or.inr ⟨h, hv⟩
    · rw [List.nodup_append]
      refine ⟨ht.nodup c, hU.filter _, ?_⟩
      rintro v hv w hw rfl
      exact (mem_without.mp hw).2 hv
  refine ⟨fun c hcr => ?_, fun s hs => ?_⟩
  · rw [← hc c hcr, tableSum_eq]
    unfold tableOf phi varsOf
    simp only
    rw [List.getElem?_eq_getElem hcr]
    obtain ⟨n1, n2, _⟩ := ht.clq c _ (List.getElem?_eq_getElem hcr)
    exact data_sum n1 n2 x
  · obtain ⟨sp, hsp⟩ : ∃ sp, t.sepsets[s]? = some sp := ⟨_, List.getElem?_eq_getElem hs⟩
    obtain ⟨n1, n2, n3, n4, n5⟩ := ht.sep s sp hsp
    have hj : Joins t s sp.first sp.second := by
      left; unfold ends; rw [hsp]; rfl
    have hfl : sp.first < t.cliques.length := by
      have hm : (sp.first, sp.second) ∈ t.sepsets.map (fun s => (s.first, s.second)) :=
        List.mem_map.mpr ⟨sp, List.mem_of_getElem? hsp, rfl⟩
      rw [hg.kinv.ends, List.mem_reverse] at hm
      exact (hg.kinv.range _ hm).1
    have hψ := (ha s _ _ hj).1
    have e3 : sem card sp.vars sp.new = t.psi card s := by funext y; unfold psi; rw [hsp]
    unfold tableOf
    simp only
    rw [hsp]
    simp only
    rw [tableSum_eq, data_sum n1 n3 x, e3, show t.psi card s = (t.st card).ψ s from rfl, hψ, ← hc _ hfl]
    unfold mg
    rw [← sumOver_append, sepVars_eq hsp]
    apply sumOver_perm
    rw [List.perm_ext_iff_of_nodup _ (ht.nodup _)]
    · intro v
      rw [List.mem_append, mem_without]
      constructor
      · rintro (h | h)
        · exact n4 h
        · exact h.1
      · intro h
        by_cases hv : v ∈ sp.vars
        · exact Or.inl hv
        · exact Or.inr ⟨h, hv⟩
    · rw [List.nodup_append]
      refine ⟨n1, (ht.nodup _).filter _, ?_⟩
      rintro v hv w hw rfl
      exact (mem_without.mp hw).2 hv

end JTree

/-! ## rounding -/

/-- one addition or subtraction: the exact number `z`, the machine's operands give `w` before it rounds -/
theorem round_step {e : K} (he : 0 ≤ e) {fl : K → K} (hfl : ∀ z, |fl z - z| ≤ e * |z|) {n : Nat} {s z w : K} (hz : |z| ≤ s) (hw : |w - z| ≤ ((1 + e) ^ n - 1) * s) :
    |fl w - z| ≤ ((1 + e) ^ (n + 1) - 1) * s := by
  have h1 : |w| ≤ (1 + e) ^ n * s := by
    have := abs_add_le (w - z) z
    rw [sub_add_cancel] at this
    nlinarith
  have h2 : |fl w - z| ≤ |fl w - w| + |w - z| := by
    have := abs_add_le (fl w - w) (w - z)
    rwa [sub_add_sub_cancel] at this
  have h3 : e * |w| ≤ e * ((1 + e) ^ n * s) := mul_le_mul_of_nonneg_left h1 he
  have h4 : ((1 + e) ^ (n + 1) - 1) * s = e * ((1 + e) ^ n * s) + ((1 + e) ^ n - 1) * s := by ring
  rw [h4]
  have := hfl w
  linarith

theorem pow_sub_one_mono {e : K} (he : 0 ≤ e) {n m : Nat} (h : n ≤ m) : (1 + e) ^ n - 1 ≤ (1 + e) ^ m - 1 := by
  have := pow_le_pow_right₀ (by linarith : (1 : K) ≤ 1 + e) h
  linarith

theorem pow_sub_one_nonneg {e : K} (he : 0 ≤ e) (n : Nat) : 0 ≤ (1 + e) ^ n - 1 := by
  have := pow_sub_one_mono he (Nat.zero_le n)
  simpa using this

theorem within_abs {q a b : K} (hq : 1 ≤ q) (ha : 0 ≤ a) (h : Within q a b) : |a - b| ≤ (q - 1) * b := by
  obtain ⟨h1, h2⟩ := h
  have hb : 0 ≤ b := by
    by_contra hb
    have : b * q < 0 := mul_neg_of_neg_of_pos (not_le.1 hb) (by linarith)
    linarith
  rw [abs_le]
  constructor
  · by_cases hab : a ≤ b
    · have : a * (q - 1) ≤ b * (q - 1) := mul_le_mul_of_nonneg_right hab (by linarith)
      nlinarith
    · have : 0 ≤ (q - 1) * b := mul_nonneg (by linarith) hb
      linarith [not_le.1 hab]
  · nlinarith

variable {ι : Type} {acc : ι → Accuracy K}

/-- the machine rounds numbers of both signs well -/
def Accuracy.Signed (A : Accuracy K) : Prop := ∀ z, |A.R.fl z - z| ≤ A.e * |z|

theorem tracked_abs (y : Tracked acc) (A : ι) {n : Nat} (h : y.count ≤ n) : |y.rounded A - y.exact| ≤ ((1 + (acc A).e) ^ n - 1) * y.exact :=
  within_abs (one_le_pow₀ (by linarith [(acc A).ok.nonneg])) (y.rounded_nonneg A) (y.up A h)

theorem machine_tableSum (A : ι) (l : List (Tracked acc)) : tableSum (l.map (Tracked.onMachine A)) = Tracked.onMachine A (tableSum l) :=
  tableSum_on (Tracked.hom_machine A).zero (Tracked.hom_machine A).add l

theorem exact_tableSum (l : List (Tracked acc)) : tableSum (l.map Tracked.exact) = (tableSum l).exact :=
  tableSum_on Tracked.hom_exact.zero Tracked.hom_exact.add l

namespace JTree

/-- one visit -/
theorem visit_near (t : JTree (Tracked acc)) (A : ι) (hA : (acc A).Signed) {e : Ev} {P : K} (hP : (tableSum (t.tableOf e)).exact = P) {n i : Nat}
    (hn : (tableSum (t.tableOf e)).count ≤ n) {b x : K} (hx : |x| ≤ i * P) (hb : |b - x| ≤ ((1 + (acc A).e) ^ n - 1) * (i * P)) :
    ∃ b', (t.on (Tracked.onMachine A)).visit (.num b) e = .num b' ∧ |(t.on Tracked.exact).visit x e| ≤ (i + 1 : Nat) * P ∧
      |b' - (t.on Tracked.exact).visit x e| ≤ ((1 + (acc A).e) ^ (n + 1) - 1) * ((i + 1 : Nat) * P) := by
  have he := (acc A).ok.nonneg
  have hP0 : 0 ≤ P := by rw [← hP]; exact (tableSum (t.tableOf e)).exact_nonneg
  have hy := tracked_abs (tableSum (t.tableOf e)) A hn
  rw [hP] at hy
  have e1 : ((i + 1 : Nat) : K) * P = i * P + P := by push_cast; ring
  have hPP : |P| = P := abs_of_nonneg hP0
  cases e with
  | clq c =>
    have v1 : (t.on Tracked.exact).visit x (.clq c) = x + P := by
      show x + tableSum _ = _
      rw [tableOf_on, exact_tableSum, hP]
    have v2 : (t.on (Tracked.onMachine A)).visit (.num b) (.clq c) = .num ((acc A).R.fl (b + (tableSum (t.tableOf (.clq c))).rounded A)) := by
      show Machine.num b + tableSum _ = _
      rw [tableOf_on, machine_tableSum]
      rfl
    refine ⟨_, v2, ?_, ?_⟩
    · rw [v1, e1]
      exact (abs_add_le _ _).trans (by rw [hPP]; linarith)
    · rw [v1]
      refine round_step he hA ?_ ?_
      · rw [e1]
        exact (abs_add_le _ _).trans (by rw [hPP]; linarith)
      · rw [e1, mul_add, add_sub_add_comm]
        exact (abs_add_le _ _).trans (add_le_add hb hy)
  | sep s =>
    have v1 : (t.on Tracked.exact).visit x (.sep s) = x - P := by
      show x - tableSum _ = _
      rw [tableOf_on, exact_tableSum, hP]
    have v2 : (t.on (Tracked.onMachine A)).visit (.num b) (.sep s) = .num ((acc A).R.fl (b - (tableSum (t.tableOf (.sep s))).rounded A)) := by
      show Machine.num b - tableSum _ = _
      rw [tableOf_on, machine_tableSum]
      rfl
    refine ⟨_, v2, ?_, ?_⟩
    · rw [v1, e1]
      exact (abs_sub _ _).trans (by rw [hPP]; linarith)
    · rw [v1]
      refine round_step he hA ?_ ?_
      · rw [e1]
        exact (abs_sub _ _).trans (by rw [hPP]; linarith)
      · rw [e1, mul_add, sub_sub_sub_comm]
        exact (abs_sub _ _).trans (add_le_add hb hy)

/-- all visits -/
theorem visits_near (t : JTree (Tracked acc)) (A : ι) (hA : (acc A).Signed) {P : K} {k : Nat} : ∀ (evs : List Ev), (∀ e ∈ evs, (tableSum (t.tableOf e)).exact = P) →
    (∀ e ∈ evs, (tableSum (t.tableOf e)).count ≤ k) → ∀ (n i : Nat) (b x : K), k ≤ n → |x| ≤ i * P → |b - x| ≤ ((1 + (acc A).e) ^ n - 1) * (i * P) →
    ∃ b', evs.foldl (t.on (Tracked.onMachine A)).visit (.num b) = .num b' ∧
      |b' - evs.foldl (t.on Tracked.exact).visit x| ≤ ((1 + (acc A).e) ^ (n + evs.length) - 1) * ((i + evs.length : Nat) * P) := by
  intro evs
  induction evs with
  | nil => intro _ _ n i b x _ hx hb; exact ⟨b, rfl, hb⟩
  | cons e evs ih =>
    intro hP hk n i b x hn hx hb
    obtain ⟨b1, h1, h2, h3⟩ := t.visit_near A hA (hP e (by simp)) ((hk e (by simp)).trans hn) hx hb
    obtain ⟨b2, g1, g2⟩ := ih (fun a ha => hP a (by simp [ha])) (fun a ha => hk a (by simp [ha])) (n + 1) (i + 1) b1 _ (by omega) h2 h3
    refine ⟨b2, by rw [List.foldl_cons, h1]; exact g1, ?_⟩
    rw [List.foldl_cons, List.length_cons, show n + (evs.length + 1) = n + 1 + evs.length by omega, show i + (evs.length + 1) = i + 1 + evs.length by omega]
    exact g2

theorem counts_bounded (f : Ev → Tracked acc) (evs : List Ev) : ∃ k, ∀ e ∈ evs, (f e).count ≤ k := by
  obtain ⟨k, hk⟩ := Tracked.counted (evs.map f)
  exact ⟨k, fun e he => hk _ (List.mem_map_of_mem he)⟩

/-- **the mass on all machines**, if neighbours agree with exact numbers -/
theorem mass_near {t : JTree (Tracked acc)} {card : Nat → Nat} {L : List (Nat × Nat)} (hg : (t.on Tracked.exact).Good card L) (ht : Typed card (t.on Tracked.exact))
    {P : K} (hc : ∀ c, c < t.cliques.length → tableSum ((t.on Tracked.exact).tableOf (.clq c)) = P)
    (hs : ∀ s, s < t.sepsets.length → tableSum ((t.on Tracked.exact).tableOf (.sep s)) = P) :
    ∃ N : Nat, ∃ x t', (t.on Tracked.exact).probabilityMass = ok (x, t') ∧
      ∀ A, (acc A).Signed → ∃ b t', (t.on (Tracked.onMachine A)).probabilityMass = ok (.num b, t') ∧ |b - x| ≤ ((1 + (acc A).e) ^ N - 1) * P := by
  have h0 : 0 < (t.on Tracked.exact).cliques.length := by have := hg.len; omega
  obtain ⟨F, hF⟩ := hg.rooted ht h0
  have hfuel := hF.fuel
  rw [on_length] at hfuel
  have hsub : Sub t none 0 F := (sub_on _).1 hF.sub
  have hsum : ∀ e, (tableSum (t.tableOf e)).exact = tableSum ((t.on Tracked.exact).tableOf e) := fun e => by rw [tableOf_on, exact_tableSum]
  have hev : ∀ e ∈ Ev.clq 0 :: events F, (tableSum (t.tableOf e)).exact = P := by
    intro e he
    rw [hsum]
    cases e with
    | clq c =>
      refine hc c ?_
      have := (hF.nodes c).1 (by
        rcases List.mem_cons.1 he with h | h
        · cases h; simp
        · exact List.mem_cons_of_mem _ ((events_clq c).1 h))
      rwa [on_length] at this
    | sep s =>
      refine hs s ?_
      have := (hF.seps s).1 (by
        rcases List.mem_cons.1 he with h | h
        · cases h
        · exact (events_sep s).1 h)
      simpa [JTree.on] using this
  obtain ⟨k, hk⟩ := counts_bounded (fun e => tableSum (t.tableOf e)) (Ev.clq 0 :: events F)
  obtain ⟨t1, m1, _⟩ := mass_fold hF.sub (by rw [on_length]; exact hfuel)
  refine ⟨(k + (Ev.clq 0 :: events F).length) * (Ev.clq 0 :: events F).length, _, t1, m1, fun A hA => ?_⟩
  obtain ⟨t2, m2, _⟩ := mass_fold ((sub_on (Tracked.onMachine A)).2 hsub) (by rw [on_length]; exact hfuel)
  obtain ⟨b, b1, b2⟩ := visits_near t A hA (Ev.clq 0 :: events F) hev hk k 0 0 0 le_rfl (by simp) (by simp)
  refine ⟨b, t2, ?_, b2.trans ?_⟩
  · rw [m2, ← b1]
    rfl
  · have he := (acc A).ok.nonneg
    have hP0 : 0 ≤ P := by
      rw [← hev (.clq 0) (by simp)]
      exact (tableSum (t.tableOf (.clq 0))).exact_nonneg
    have hq := pow_sub_one_nonneg he (k + (Ev.clq 0 :: events F).length)
    have hB := one_add_mul_le_pow (a := (1 + (acc A).e) ^ (k + (Ev.clq 0 :: events F).length) - 1) (by linarith) (Ev.clq 0 :: events F).length
    rw [add_sub_cancel, ← pow_mul] at hB
    rw [zero_add, ← mul_assoc]
    refine mul_le_mul_of_nonneg_right ?_ hP0
    linarith [mul_comm ((1 + (acc A).e) ^ (k + (Ev.clq 0 :: events F).length) - 1) (((Ev.clq 0 :: events F).length : Nat) : K)]

end JTree

/-- **the mass of a consistent model on all machines**: the exact one up to a relative error -/
theorem Model.mass_near {m : Model (Tracked acc)} {net : Net K} {w : World K} {T : Asg → K} (h : Model.Carries net (m.on Tracked.exact) w T)
    (ha : (m.on Tracked.exact).tree.Agrees net.card ((m.on Tracked.exact).tree.st net.card)) (x : Asg) :
    ∃ N mt, m.perform .mass = ok mt ∧ ∀ A, (acc A).Signed → ∃ b, (m.on (Tracked.onMachine A)).probMass = ok (.num b, mt.on (Tracked.onMachine A)) ∧
      |b - sumOver net.card net.vars T x| ≤ ((1 + (acc A).e) ^ N - 1) * sumOver net.card net.vars T x := by
  obtain ⟨L, hL⟩ := h.sound.good
  obtain ⟨h1, h2⟩ := JTree.tables_total hL h.sound.typed h.sound.nonneg ha h.reps h.sound.nodup h.sound.cover x
  obtain ⟨N, y, t', g1, g2⟩ := JTree.mass_near (t := m.tree) (P := sumOver net.card net.vars T x) hL h.sound.typed
    (fun c hc => h1 c (by simpa [Model.on, JTree.on] using hc)) (fun s hs => h2 s (by simpa [Model.on, JTree.on] using hs))
  obtain ⟨m', k1, _⟩ := h.mass ha x
  have k2 : (m.on Tracked.exact).probMass = ok (y, { m.on Tracked.exact with tree := t' }) := by
    unfold Model.probMass
    show (m.tree.on Tracked.exact).probabilityMass >>= _ = _
    rw [g1, ok_bind]
  obtain ⟨e1, e2⟩ := Prod.mk.inj (Res.ok.inj (k1.symm.trans k2))
  subst e1
  have k3 : (m.on Tracked.exact).perform .mass = ok m' := by
    unfold Model.perform
    rw [k1, ok_bind]
  rw [on_askMass] at k3
  have : ∃ mt, m.perform .mass = ok mt := by
    cases e : m.perform .mass with
    | ok mt => exact ⟨mt, rfl⟩
    | ub => rw [e] at k3; cases k3
  obtain ⟨mt, hmt⟩ := this
  refine ⟨N, mt, hmt, fun A hA => ?_⟩
  obtain ⟨b, t2, b1, b2⟩ := g2 A hA
  refine ⟨b, ?_, b2⟩
  have k4 : (m.on (Tracked.onMachine A)).probMass = ok (.num b, { m.on (Tracked.onMachine A) with tree := t2 }) := by
    unfold Model.probMass
    show (m.tree.on (Tracked.onMachine A)).probabilityMass >>= _ = _
    rw [b1, ok_bind]
  have k5 := on_askMass (φ := Tracked.onMachine A) m
  rw [hmt] at k5
  unfold Model.perform at k5
  rw [k4, ok_bind] at k5
  rw [k4]
  exact congrArg (fun z => ok (Machine.num b, z)) (Res.ok.inj k5)

end
end Nip
